import Verif.Props.DblParam
import Verif.Spec.Rounding

/-!
# C95: `DoubleParameter` in rounded arithmetic

The same model, `double` being the numbers with `p` binary digits and round-to-nearest-even operations (`Verif.Spec.Rounding`; no
overflow, no underflow).
-/

namespace K52.Nearest

theorem ulpExp_zpow (p : Nat) (x : ℚ) (hx : x ≠ 0) (k : Int) : ulpExp p (x * 2 ^ k) = ulpExp p x + k := by
  unfold ulpExp
  have hk := zpow_pos two_pos k
  have h0 : 0 < |x| := abs_pos.2 hx
  have h1 : 0 < |x * 2 ^ k| := by rw [abs_mul, abs_of_pos hk]; positivity
  have e : Int.log 2 |x * 2 ^ k| = Int.log 2 |x| + k := by
    obtain ⟨a1, a2⟩ := log_bounds h0
    apply le_antisymm
    · have := (Int.lt_zpow_iff_log_lt (b := 2) (by norm_num) h1 (x := Int.log 2 |x| + k + 1)).1 (by
        rw [abs_mul, abs_of_pos hk, show Int.log 2 |x| + k + 1 = Int.log 2 |x| + 1 + k by ring, Nat.cast_ofNat, zpow_add₀ (by norm_num)]
        exact mul_lt_mul_of_pos_right a2 hk)
      omega
    · refine (Int.zpow_le_iff_le_log (b := 2) (by norm_num) h1).1 ?_
      rw [abs_mul, abs_of_pos hk, Nat.cast_ofNat, zpow_add₀ (by norm_num)]
      exact mul_le_mul_of_nonneg_right a1 hk.le
  rw [e]; ring

/-- Scaling by a power of two is exact. -/
theorem fl_zpow (p : Nat) (x : ℚ) (k : Int) : fl p (x * 2 ^ k) = fl p x * 2 ^ k := by
  rcases eq_or_ne x 0 with rfl | hx
  · simp [fl_zero]
  have h2 : (2 : ℚ) ≠ 0 := by norm_num
  unfold fl
  rw [ulpExp_zpow p x hx k, zpow_add₀ h2, mul_div_mul_right _ _ (zpow_pos two_pos k).ne']
  ring

theorem fl_div_pow (p : Nat) (x : ℚ) (s : Nat) : fl p (x / 2 ^ s) = fl p x / 2 ^ s := by
  have := fl_zpow p x (-s)
  rw [zpow_neg, zpow_natCast] at this
  simpa [div_eq_mul_inv] using this

/-- Integers with at most `p` digits are exact. -/
theorem fl_int {p : Nat} (hp : 1 ≤ p) (N : Int) (h : |N| ≤ 2 ^ p) : fl p N = N := by
  simpa using fl_repr hp N 0 h

theorem fl_le_mul {p : Nat} {x : ℚ} (hx : 0 ≤ x) : fl p x ≤ x * (1 + 1 / 2 ^ p) := by
  have := (abs_le.1 (fl_error (p := p) x)).2
  rw [abs_of_nonneg hx] at this
  have e : x * (1 + 1 / 2 ^ p) = x + x / 2 ^ p := by ring
  rw [e]; linarith

theorem mul_le_fl {p : Nat} {x : ℚ} (hx : 0 ≤ x) : x * (1 - 1 / 2 ^ p) ≤ fl p x := by
  have := (abs_le.1 (fl_error (p := p) x)).1
  rw [abs_of_nonneg hx] at this
  have e : x * (1 - 1 / 2 ^ p) = x - x / 2 ^ p := by ring
  rw [e]; linarith

theorem fl_pos {p : Nat} (hp : 1 ≤ p) {x : ℚ} (hx : 0 < x) : 0 < fl p x := by
  refine lt_of_lt_of_le ?_ (mul_le_fl hx.le)
  have : (1 : ℚ) / 2 ^ p ≤ 1 / 2 := by
    apply one_div_le_one_div_of_le (by norm_num)
    calc (2 : ℚ) = 2 ^ 1 := by norm_num
      _ ≤ 2 ^ p := pow_le_pow_right₀ (by norm_num) hp
  apply mul_pos hx; linarith

end K52.Nearest

namespace K52

/-- Conversions of a rounded number to an integer are exact. -/
instance {r : Rounding} : ToInt (Fl r) := ⟨fun x => truncZ x.val, fun x => ⌈x.val⌉⟩

namespace RoundParam
open DblParam Nearest

variable {p : Nat} {hp : 1 ≤ p}

/-- What the constructor and the mutators maintain. -/
structure WFr (P : DblParam (Fl (nearest p hp))) (s : Nat) (n : Int) : Prop where
  cs : P.cs = ⟨true, s⟩
  base : P.base = some ⟨⟨true, s⟩, n, 0, 2 ^ s⟩
  small : s ≤ 30
  bounds : P.min < P.max
  prec : P.prec.val = fl p (P.max.val - P.min.val) / 2 ^ s

theorem best_val (hp31 : 30 ≤ p) {s : Nat} (hs : s ≤ 30) : (((2 ^ s : Int)) : Fl (nearest p hp)).val = 2 ^ s := by
  rw [Fl.val_int]
  show fl p _ = _
  have : |(2 ^ s : Int)| ≤ 2 ^ p := by
    rw [abs_of_pos (by positivity)]
    exact pow_le_pow_right₀ (by norm_num) (by omega)
  rw [fl_int hp _ this]; push_cast; rfl

theorem prec_val (hp31 : 30 ≤ p) {s : Nat} (hs : s ≤ 30) (a b : Fl (nearest p hp)) :
    ((b - a) / ((2 ^ s : Int) : Fl (nearest p hp))).val = fl p (b.val - a.val) / 2 ^ s := by
  rw [Fl.val_div, best_val hp31 hs, Fl.val_sub]
  show fl p (fl p _ / _) = _
  rw [fl_div_pow, fl_idem hp]

theorem WFr.prec_pos {P : DblParam (Fl (nearest p hp))} {s n} (h : WFr P s n) : 0 < P.prec.val := by
  rw [h.prec]
  exact div_pos (fl_pos hp (sub_pos.2 (Fl.lt_iff.1 h.bounds))) (by positivity)

theorem WFr.prec_ne {P : DblParam (Fl (nearest p hp))} {s n} (h : WFr P s n) : P.prec ≠ 0 := by
  intro e
  have := h.prec_pos
  rw [e, Fl.val_zero] at this
  exact lt_irrefl _ this

/-- the grid index of a value -/
def idx (P : DblParam (Fl (nearest p hp))) (v : Fl (nearest p hp)) : Int :=
  truncZ (fl p (fl p (v.val - P.min.val) / P.prec.val))

theorem toInt_idx (P : DblParam (Fl (nearest p hp))) (v : Fl (nearest p hp)) :
    toInt32 ((v - P.min) / P.prec) = int32 (idx P v) := rfl

theorem WFr.setValue_ok {P : DblParam (Fl (nearest p hp))} {s n} (h : WFr P s n) {v} (hv : -2147483648 ≤ idx P v ∧ idx P v ≤ 2147483647) :
    P.setValue v = .ok { P with base := some ⟨⟨true, s⟩, idx P v, 0, 2 ^ s⟩ } ∧
    WFr { P with base := some ⟨⟨true, s⟩, idx P v, 0, 2 ^ s⟩ } s (idx P v) := by
  refine ⟨?_, ⟨h.cs, rfl, h.small, h.bounds, h.prec⟩⟩
  unfold DblParam.setValue
  rw [if_neg h.prec_ne, toInt_idx, int32_ok.2 ⟨rfl, hv⟩, h.base]
  rfl

theorem WFr.setValue_inv {P P' : DblParam (Fl (nearest p hp))} {s n} (h : WFr P s n) {v} (e : P.setValue v = .ok P') :
    (-2147483648 ≤ idx P v ∧ idx P v ≤ 2147483647) := by
  unfold DblParam.setValue at e
  rw [if_neg h.prec_ne, Res.bind_eq_ok] at e
  obtain ⟨m, hm, _⟩ := e
  rw [toInt_idx] at hm
  have := int32_ok.1 hm
  omega

/-- A value inside the range has an index from 0 to `2^s`. -/
theorem WFr.idx_range {P : DblParam (Fl (nearest p hp))} {s n} (hp31 : 30 ≤ p) (h : WFr P s n) {v} (h1 : P.min ≤ v) (h2 : v ≤ P.max) :
    0 ≤ idx P v ∧ idx P v ≤ 2 ^ s ∧ idx P v = ⌊fl p (fl p (v.val - P.min.val) / P.prec.val)⌋ := by
  have hpp := h.prec_pos
  have hD := fl_pos hp (sub_pos.2 (Fl.lt_iff.1 h.bounds))
  have q0 : 0 ≤ fl p (v.val - P.min.val) / P.prec.val :=
    div_nonneg (fl_nonneg hp (sub_nonneg.2 (Fl.le_iff.1 h1))) hpp.le
  have hle : fl p (v.val - P.min.val) / P.prec.val ≤ 2 ^ s := by
    have h3 : fl p (v.val - P.min.val) ≤ fl p (P.max.val - P.min.val) := fl_mono hp (by have := Fl.le_iff.1 h2; linarith)
    rw [div_le_iff₀ hpp, h.prec]
    have : (2 : ℚ) ^ s * (fl p (P.max.val - P.min.val) / 2 ^ s) = fl p (P.max.val - P.min.val) := by field_simp
    rw [this]; exact h3
  have hle' : fl p (fl p (v.val - P.min.val) / P.prec.val) ≤ 2 ^ s := by
    have := fl_mono hp hle
    have e := fl_int hp (2 ^ s) (by rw [abs_of_pos (by positivity)]; exact pow_le_pow_right₀ (by norm_num) (by have := h.small; omega))
    push_cast at e
    rwa [e] at this
  have h0 := fl_nonneg hp q0
  have e : idx P v = ⌊fl p (fl p (v.val - P.min.val) / P.prec.val)⌋ := truncZ_nonneg h0
  refine ⟨by rw [e]; exact Int.floor_nonneg.2 h0, ?_, e⟩
  have := Int.floor_le (fl p (fl p (v.val - P.min.val) / P.prec.val))
  rw [← e] at this
  have h4 : (idx P v : ℚ) ≤ ((2 ^ s : Int) : ℚ) := by push_cast; linarith
  exact_mod_cast h4

/-- The constructor's number of steps, before it is raised to a power of two. -/
def steps (min max dp : Fl (nearest p hp)) : Int := ⌈fl p (fl p (max.val - min.val) / dp.val)⌉

theorem new_ok (hp31 : 30 ≤ p) {d min max dp : Fl (nearest p hp)} (hb : min < max) (h1 : min ≤ d) (h2 : d ≤ max) (hdp : dp ≠ 0)
    (c1 : 1 ≤ steps min max dp) (c2 : steps min max dp ≤ 2 ^ 30) :
    ∃ s P, new d min max dp = .ok P ∧ WFr P s (idx P d) ∧ P.min = min ∧ P.max = max ∧
      steps min max dp ≤ 2 ^ s ∧ ∀ q < s, (2 : Int) ^ q < steps min max dp := by
  obtain ⟨s, e2, hs, c3, c4⟩ := (bestLoop_spec (steps min max dp) 1 (by decide) 0 (by norm_num) (by decide) (by simp)).1 c2
  have e1 : getMaxInt min max dp = .ok (steps min max dp) := by
    unfold getMaxInt
    rw [if_neg hdp]
    have : int32 (ToInt.ceil ((max - min) / dp)) = .ok (steps min max dp) :=
      int32_ok.2 ⟨rfl, by have : (ToInt.ceil ((max - min) / dp)) = steps min max dp := rfl
                          rw [this]; norm_num at c2; omega⟩
    rw [this]
    simp; omega
  have e3 : IntParam.newMin 0 (2 ^ s) = .ok ⟨⟨true, s⟩, 0, 0, 2 ^ s⟩ := IntParam.new_of_count 0 (count_pow s hs)
  have key : WFr (⟨⟨true, s⟩, some ⟨⟨true, s⟩, 0, 0, 2 ^ s⟩, min, max, (max - min) / ((2 ^ s : Int) : Fl (nearest p hp))⟩ : DblParam _) s 0 :=
    ⟨rfl, rfl, hs, hb, prec_val hp31 hs _ _⟩
  have hidx := key.idx_range hp31 (v := d) h1 h2
  have hset := key.setValue_ok (v := d) (by have := pow_le_30 hs; omega)
  refine ⟨s, { (⟨⟨true, s⟩, some ⟨⟨true, s⟩, 0, 0, 2 ^ s⟩, min, max, (max - min) / ((2 ^ s : Int) : Fl (nearest p hp))⟩ : DblParam _) with
    base := some ⟨⟨true, s⟩, idx (⟨⟨true, s⟩, some ⟨⟨true, s⟩, 0, 0, 2 ^ s⟩, min, max, (max - min) / ((2 ^ s : Int) : Fl (nearest p hp))⟩ : DblParam _) d, 0, 2 ^ s⟩ },
    ?_, hset.2, rfl, rfl, c3, c4⟩
  unfold new
  rw [if_neg (not_le.2 hb), if_neg (by simp [h1, h2]), e1]
  simp only [Res.ok_bind, countBestMaxInt, e2, e3]
  have hset1 := hset.1
  unfold setValue at hset1 ⊢
  rw [if_neg key.prec_ne] at hset1 ⊢
  rw [Res.bind_eq_ok] at hset1
  obtain ⟨n, en, h5⟩ := hset1
  simp only at en h5 ⊢
  rw [en]
  simp only [Res.pure_eq, Res.ok.injEq, DblParam.mk.injEq, Option.some.injEq, IntParam.setValue, IntParam.mk.injEq, true_and, and_true] at h5
  simp [ConstSize.get, ConstSize.set, ConstSize.new, IntParam.setValue, h5]

theorem new_inv (hp31 : 30 ≤ p) {d min max dp : Fl (nearest p hp)} {P} (h : new d min max dp = .ok P) :
    min < max ∧ min ≤ d ∧ d ≤ max ∧ dp ≠ 0 ∧ 1 ≤ steps min max dp ∧ steps min max dp ≤ 2 ^ 30 := by
  unfold new at h
  split at h
  · cases h
  · next hb =>
    split at h
    · cases h
    · next hd =>
      simp only [not_le] at hb
      simp at hd
      rw [Res.bind_eq_ok] at h
      obtain ⟨m, hm, h⟩ := h
      unfold getMaxInt at hm
      split at hm
      · cases hm
      · next hdp =>
        rw [Res.bind_eq_ok] at hm
        obtain ⟨m', hm1, hm2⟩ := hm
        split at hm2
        · cases hm2
        · next hge =>
          simp at hm2; subst hm2
          have hm3 : steps min max dp = m' := (int32_ok.1 hm1).1
          rw [Res.bind_eq_ok] at h
          obtain ⟨b, hbst, h⟩ := h
          obtain ⟨s, rfl, hs30, hle, hlow⟩ := best_eq_ok hbst
          refine ⟨hb, hd.1, hd.2, hdp, by omega, ?_⟩
          have : (2 : Int) ^ s ≤ 2 ^ 30 := pow_le_pow_right₀ (by norm_num) hs30
          omega

theorem WFr.setFrom {P : DblParam (Fl (nearest p hp))} {s : Nat} {n : Int} (h : WFr P s n) (chr : List Bool) (hl : chr.length = s) :
    P.setFromChromosome chr = ({ P with base := some ⟨⟨true, s⟩, bitsVal chr, 0, 2 ^ s⟩ }, .ok ()) ∧
    WFr { P with base := some ⟨⟨true, s⟩, bitsVal chr, 0, 2 ^ s⟩ } s (bitsVal chr) := by
  have hlt : (bitsVal chr : Int) < 2 ^ s := by rw [← hl]; exact_mod_cast bitsVal_lt chr
  have := pow_le_30 h.small
  have e := IntParam.setFrom_spec (p := ⟨⟨true, s⟩, n, 0, 2 ^ s⟩) rfl h.small chr hl (by simp only; omega)
  refine ⟨?_, ⟨h.cs, rfl, h.small, h.bounds, h.prec⟩⟩
  unfold DblParam.setFromChromosome
  rw [h.base]
  simp only [e, add_zero]

theorem WFr.setFrom_wrong {P : DblParam (Fl (nearest p hp))} {s : Nat} {n : Int} (h : WFr P s n) (chr : List Bool) (hl : chr.length ≠ s) :
    ∃ w, P.setFromChromosome chr = (P, .throw w) := by
  refine ⟨"invalid_argument", ?_⟩
  have hb := h.base
  unfold DblParam.setFromChromosome
  rw [hb]
  simp only [IntParam.setFromChromosome, ConstSize.check, if_pos hl, if_true]
  cases P
  simp_all

theorem Reach.wfr (hp31 : 30 ≤ p) {min max dp : Fl (nearest p hp)} {P} (h : Reach min max dp P) :
    ∃ s n, WFr P s n ∧ P.min = min ∧ P.max = max ∧ dp ≠ 0 ∧ 1 ≤ steps min max dp ∧ steps min max dp ≤ 2 ^ s ∧
      ∀ q < s, (2 : Int) ^ q < steps min max dp := by
  induction h with
  | new h =>
    obtain ⟨h1, h2, h3, h4, h5, h6⟩ := new_inv hp31 h
    obtain ⟨s, P', e, w, e1, e2, e3⟩ := new_ok hp31 h1 h2 h3 h4 h5 h6
    rw [h] at e; cases e
    exact ⟨s, _, w, e1, e2, h4, h5, e3⟩
  | setValue h e ih =>
    obtain ⟨s, n, h1, h2⟩ := ih
    obtain ⟨e', h5⟩ := h1.setValue_ok (h1.setValue_inv e)
    rw [e'] at e; simp at e; subst e
    exact ⟨s, _, h5, h2⟩
  | @setFrom P chr h e ih =>
    obtain ⟨s, n, h1, h2⟩ := ih
    by_cases hl : chr.length = s
    · obtain ⟨e', h5⟩ := h1.setFrom chr hl
      rw [e']; exact ⟨s, _, h5, h2⟩
    · obtain ⟨w, hw⟩ := h1.setFrom_wrong chr hl
      rw [hw]; exact ⟨s, n, h1, h2⟩

/-- the value of grid index `n` -/
theorem WFr.getValue {P : DblParam (Fl (nearest p hp))} {s n} (hp31 : 31 ≤ p) (h : WFr P s n) (h0 : 0 ≤ n) (hn : n ≤ 2 ^ s) :
    ∃ g, P.getValue = .ok g ∧ g.val = fl p (fl p (n * P.prec.val) + P.min.val) := by
  refine ⟨(n : Fl (nearest p hp)) * P.prec + P.min, by unfold DblParam.getValue; rw [h.base], ?_⟩
  rw [Fl.val_add, Fl.val_mul, Fl.val_int]
  show fl p (fl p (fl p n * _) + _) = _
  rw [fl_int hp n (by
    rw [abs_of_nonneg h0]
    refine hn.trans (pow_le_pow_right₀ (by norm_num) (by have := h.small; omega)))]

theorem small_eps {k : Nat} (h : k ≤ p) : (1 : ℚ) / 2 ^ p ≤ 1 / 2 ^ k :=
  one_div_le_one_div_of_le (by positivity) (pow_le_pow_right₀ (by norm_num) h)

/-- grid points below the last one do not leave the range -/
theorem WFr.grid_le {P : DblParam (Fl (nearest p hp))} {s n} (hp32 : 32 ≤ p) (h : WFr P s n) (h0 : 0 ≤ n) (hn : n < 2 ^ s) :
    fl p (n * P.prec.val) ≤ P.max.val - P.min.val := by
  have hu := small_eps hp32
  have hu0 : (0 : ℚ) < 1 / 2 ^ p := by positivity
  set u : ℚ := 1 / 2 ^ p with hu'
  have hD : 0 < P.max.val - P.min.val := sub_pos.2 (Fl.lt_iff.1 h.bounds)
  set D := P.max.val - P.min.val with hD'
  have hS : (0 : ℚ) < 2 ^ s := by positivity
  have hnq : (n : ℚ) ≤ 2 ^ s - 1 := by
    have : n ≤ 2 ^ s - 1 := by omega
    have h3 : (n : ℚ) ≤ ((2 ^ s - 1 : Int) : ℚ) := by exact_mod_cast this
    push_cast at h3; exact h3
  have hn0 : (0 : ℚ) ≤ n := by exact_mod_cast h0
  have hfrac : (n : ℚ) / 2 ^ s ≤ 1 - 1 / 2 ^ 30 := by
    have h5 : (1 : ℚ) / 2 ^ 30 ≤ 1 / 2 ^ s :=
      one_div_le_one_div_of_le hS (pow_le_pow_right₀ (by norm_num) h.small)
    have h6 : (n : ℚ) / 2 ^ s ≤ (2 ^ s - 1) / 2 ^ s := div_le_div_of_nonneg_right hnq hS.le
    rw [sub_div, div_self hS.ne'] at h6
    linarith
  have e1 : fl p D ≤ D * (1 + u) := fl_le_mul hD.le
  have hnp : 0 ≤ (n : ℚ) * P.prec.val := mul_nonneg hn0 h.prec_pos.le
  have e2 : fl p (n * P.prec.val) ≤ n * P.prec.val * (1 + u) := fl_le_mul hnp
  have e3 : (n : ℚ) * P.prec.val ≤ (1 - 1 / 2 ^ 30) * (D * (1 + u)) := by
    rw [h.prec]
    calc (n : ℚ) * (fl p D / 2 ^ s) = n / 2 ^ s * fl p D := by ring
      _ ≤ (1 - 1 / 2 ^ 30) * fl p D := mul_le_mul_of_nonneg_right hfrac (fl_nonneg hp hD.le)
      _ ≤ _ := mul_le_mul_of_nonneg_left e1 (by norm_num)
  have e4 : (n : ℚ) * P.prec.val * (1 + u) ≤ (1 - 1 / 2 ^ 30) * (D * (1 + u)) * (1 + u) :=
    mul_le_mul_of_nonneg_right e3 (by linarith)
  have e5 : (1 - 1 / 2 ^ 30) * (D * (1 + u)) * (1 + u) ≤ D := by
    have : (1 - 1 / 2 ^ 30) * ((1 + u) * (1 + u)) ≤ 1 := by
      have : (1 + u) * (1 + u) ≤ (1 + 1 / 2 ^ 32) * (1 + 1 / 2 ^ 32) := by
        apply mul_le_mul <;> linarith
      have h7 : (0 : ℚ) ≤ 1 - 1 / 2 ^ 30 := by norm_num
      have := mul_le_mul_of_nonneg_left this h7
      norm_num at this ⊢
      linarith
    calc _ = D * ((1 - 1 / 2 ^ 30) * ((1 + u) * (1 + u))) := by ring
      _ ≤ D * 1 := mul_le_mul_of_nonneg_left this hD.le
      _ = D := mul_one D
  linarith

theorem WFr.grid_mem {P : DblParam (Fl (nearest p hp))} {s n} (hp32 : 32 ≤ p) (h : WFr P s n) (h0 : 0 ≤ n) (hn : n < 2 ^ s) :
    ∃ g, P.getValue = .ok g ∧ g.val = fl p (fl p (n * P.prec.val) + P.min.val) ∧ P.min ≤ g ∧ g ≤ P.max := by
  obtain ⟨g, e1, e2⟩ := h.getValue (by omega) h0 hn.le
  have hg := h.grid_le hp32 h0 hn
  have hnp : 0 ≤ fl p ((n : ℚ) * P.prec.val) := fl_nonneg hp (mul_nonneg (by exact_mod_cast h0) h.prec_pos.le)
  refine ⟨g, e1, e2, ?_, ?_⟩
  · rw [Fl.le_iff, e2]; exact Fl.le_round (r := nearest p hp) (by linarith)
  · rw [Fl.le_iff, e2]; exact Fl.round_le (r := nearest p hp) (by linarith)

theorem check_of_value {r : Rounding} {P : DblParam (Fl r)} {g} (h : P.getValue = .ok g) :
    P.checkConstraints = .ok (decide (P.min ≤ g ∧ g ≤ P.max)) := by
  unfold DblParam.checkConstraints
  rw [h]
  simp only [Res.ok_bind, Res.pure_eq, checkBounds, Bool.and_eq_decide]
  congr 1
  simp

/-- **C95 (decoding).** With at least 32 binary digits every chromosome of the right length decodes to a value inside the bounds, the
constraints hold, encoding returns the same chromosome, and a larger chromosome never decodes to a smaller value. -/
theorem C95_decode (h32 : 32 ≤ p) (min max dp : Fl (nearest p hp)) (P : DblParam (Fl (nearest p hp))) (hP : Reach min max dp P)
    (chr : List Bool) (hl : P.cs.get = .ok chr.length) :
    (P.setFromChromosome chr).2 = .ok () ∧
    (P.setFromChromosome chr).1.checkConstraints = .ok true ∧
    (∀ any : List Bool, any.length = chr.length → (P.setFromChromosome chr).1.setChromosome any = .ok chr) ∧
    ∃ v, (P.setFromChromosome chr).1.getValue = .ok v ∧ min ≤ v ∧ v ≤ max ∧
      ∀ chr' : List Bool, chr'.length = chr.length → bitsVal chr ≤ bitsVal chr' →
        ∃ v', (P.setFromChromosome chr').1.getValue = .ok v' ∧ v ≤ v' := by
  obtain ⟨s, n, w, rfl, rfl, -⟩ := Reach.wfr (by omega) hP
  have hs : chr.length = s := by rw [w.cs] at hl; simpa [ConstSize.get] using hl.symm
  obtain ⟨e, w'⟩ := w.setFrom chr hs
  have hlt : (bitsVal chr : Int) < 2 ^ s := by rw [← hs]; exact_mod_cast bitsVal_lt chr
  obtain ⟨g, g1, g2, g3, g4⟩ := w'.grid_mem h32 (by positivity) hlt
  rw [e]
  refine ⟨rfl, ?_, ?_, g, g1, g3, g4, ?_⟩
  · rw [check_of_value g1]; simp; exact ⟨g3, g4⟩
  · intro any ha
    have hb := pow_le_30 w.small
    obtain ⟨out, o1, o2, o3⟩ := IntParam.setChromosome_spec (p := ⟨⟨true, s⟩, bitsVal chr, 0, 2 ^ s⟩) rfl w.small
      (by simp only; omega) any (by omega)
    unfold DblParam.setChromosome
    simp only
    rw [o1]
    congr 1
    apply bitsVal_inj (by omega)
    simp only [sub_zero] at o3
    rw [Int.emod_eq_of_lt (by positivity) hlt] at o3
    exact_mod_cast o3
  · intro chr' hl' hle
    obtain ⟨e', w''⟩ := w.setFrom chr' (by omega)
    have hlt' : (bitsVal chr' : Int) < 2 ^ s := by rw [← hs, ← hl']; exact_mod_cast bitsVal_lt chr'
    obtain ⟨g', g1', g2', -⟩ := w''.grid_mem h32 (by positivity) hlt'
    rw [e']
    refine ⟨g', g1', ?_⟩
    rw [Fl.le_iff, g2, g2']
    apply fl_mono hp
    apply add_le_add_left
    apply fl_mono hp
    apply mul_le_mul_of_nonneg_right _ w.prec_pos.le
    exact_mod_cast hle

/-- Error analysis of `SetValue` followed by `GetValue`: `W` = distance from the lower bound, `u` = rounding unit. -/
theorem accuracy {u W a q fq n P b m M g v : ℚ} (u0 : 0 ≤ u) (u1 : u ≤ 1 / 2 ^ 32) (W0 : 0 ≤ W) (hP : 0 < P)
    (ha : |a - W| ≤ W * u) (a0 : 0 ≤ a) (hq : q * P = a) (hfq : |fq - q| ≤ q * u) (n0 : 0 ≤ n) (n1 : n ≤ fq) (n2 : fq < n + 1)
    (hb : |b - n * P| ≤ n * P * u) (b0 : 0 ≤ b) (hW : v = W + m) (hm : -M ≤ m) (hv : v ≤ M) (hg : |g - (b + m)| ≤ |b + m| * u) :
    v - P - 10 * M * u ≤ g ∧ g ≤ v + 10 * M * u := by
  rw [abs_le] at ha hfq hb hg
  have M0 : W ≤ 2 * M := by linarith
  have x1 : fq * P ≤ a * (1 + u) := by
    have := mul_le_mul_of_nonneg_right hfq.2 hP.le
    nlinarith
  have x2 : a * (1 - u) ≤ fq * P := by
    have := mul_le_mul_of_nonneg_right hfq.1 hP.le
    nlinarith
  have y1 : n * P ≤ a * (1 + u) := (mul_le_mul_of_nonneg_right n1 hP.le).trans x1
  have y2 : a * (1 - u) - P ≤ n * P := by
    have := mul_lt_mul_of_pos_right n2 hP
    nlinarith
  have a1 : a ≤ W * (1 + u) := by linarith [ha.2]
  have a2 : W * (1 - u) ≤ a := by linarith [ha.1]
  have uu : u * u ≤ u / 2 ^ 32 := by
    have := mul_le_mul_of_nonneg_left u1 u0
    linarith
  have z1 : n * P ≤ W * (1 + 5 / 2 * u) := by
    calc n * P ≤ a * (1 + u) := y1
      _ ≤ W * (1 + u) * (1 + u) := mul_le_mul_of_nonneg_right a1 (by linarith)
      _ = W * (1 + 2 * u + u * u) := by ring
      _ ≤ _ := mul_le_mul_of_nonneg_left (by linarith) W0
  have z2 : W * (1 - 2 * u) - P ≤ n * P := by
    have : W * (1 - u) * (1 - u) ≤ a * (1 - u) := mul_le_mul_of_nonneg_right a2 (by norm_num at u1; linarith)
    have h3 : W * (1 - 2 * u) ≤ W * (1 - u) * (1 - u) := by
      rw [mul_assoc]; exact mul_le_mul_of_nonneg_left (by nlinarith) W0
    linarith
  have nP0 : 0 ≤ n * P := mul_nonneg n0 hP.le
  have t : n * P * u ≤ W * (3 / 2 * u) := by
    calc n * P * u ≤ W * (1 + 5 / 2 * u) * u := mul_le_mul_of_nonneg_right z1 u0
      _ = W * (u + 5 / 2 * (u * u)) := by ring
      _ ≤ _ := mul_le_mul_of_nonneg_left (by linarith) W0
  have b1 : b ≤ W + W * (4 * u) := by linarith [hb.2]
  have b2 : W - W * (4 * u) - P ≤ b := by
    have := mul_nonneg W0 u0
    linarith [hb.1]
  have wu : W * (4 * u) ≤ 2 * M * (4 * u) := mul_le_mul_of_nonneg_right M0 (by linarith)
  have Mn : 0 ≤ M := by linarith
  have habs : |b + m| ≤ 2 * M := by
    rw [abs_le]
    have : 2 * M * (4 * u) ≤ M := by
      have : 2 * M * (4 * u) = M * (8 * u) := by ring
      rw [this]
      calc M * (8 * u) ≤ M * 1 := mul_le_mul_of_nonneg_left (by norm_num at u1; linarith) Mn
        _ = M := mul_one M
    constructor <;> linarith
  have hlast : |b + m| * u ≤ 2 * M * u := mul_le_mul_of_nonneg_right habs u0
  constructor <;> linarith [hg.1, hg.2]

/-- **C95 (setting a value).** With at least 32 binary digits `SetValue` of a value inside the bounds has no undefined behaviour, and
the value read back is at most the rounding error above it and at most one precision step plus the rounding error below it, where the
rounding error is ten units of the larger bound; it is never below the lower bound. -/
theorem C95_setValue (h32 : 32 ≤ p) (min max dp : Fl (nearest p hp)) (P : DblParam (Fl (nearest p hp))) (hP : Reach min max dp P)
    (v : Fl (nearest p hp)) (h1 : min ≤ v) (h2 : v ≤ max) (M : ℚ) (hM : |min.val| ≤ M ∧ |max.val| ≤ M) :
    ∃ P' g, P.setValue v = .ok P' ∧ P'.getValue = .ok g ∧ min ≤ g ∧
      v.val - P.prec.val - 10 * M / 2 ^ p ≤ g.val ∧ g.val ≤ v.val + 10 * M / 2 ^ p := by
  obtain ⟨s, n, w, rfl, rfl, -⟩ := Reach.wfr (by omega) hP
  obtain ⟨i0, i1, i2⟩ := w.idx_range (by omega) h1 h2
  obtain ⟨e, w'⟩ := w.setValue_ok (v := v) (by have := pow_le_30 w.small; omega)
  obtain ⟨g, g1, g2⟩ := w'.getValue (by omega) i0 i1
  simp only at g2
  have hfl := Int.floor_le (fl p (fl p (v.val - P.min.val) / P.prec.val))
  have hlt := Int.lt_floor_add_one (fl p (fl p (v.val - P.min.val) / P.prec.val))
  rw [← i2] at hfl hlt
  have hW : 0 ≤ v.val - P.min.val := sub_nonneg.2 (Fl.le_iff.1 h1)
  have ha0 := fl_nonneg hp hW
  have hq0 : 0 ≤ fl p (v.val - P.min.val) / P.prec.val := div_nonneg ha0 w.prec_pos.le
  have hi : (0 : ℚ) ≤ idx P v := by exact_mod_cast i0
  have hnp : 0 ≤ (idx P v : ℚ) * P.prec.val := mul_nonneg hi w.prec_pos.le
  have hb0 := fl_nonneg hp hnp
  have key := accuracy (u := 1 / 2 ^ p) (W := v.val - P.min.val) (a := fl p (v.val - P.min.val))
    (q := fl p (v.val - P.min.val) / P.prec.val) (fq := fl p (fl p (v.val - P.min.val) / P.prec.val)) (n := idx P v)
    (P := P.prec.val) (b := fl p ((idx P v : ℚ) * P.prec.val)) (m := P.min.val) (M := M) (g := g.val) (v := v.val)
    (by positivity) (small_eps h32) hW w.prec_pos
    (by have := fl_error (p := p) (v.val - P.min.val); rwa [abs_of_nonneg hW, div_eq_mul_one_div] at this)
    ha0 (div_mul_cancel₀ _ w.prec_pos.ne')
    (by have := fl_error (p := p) (fl p (v.val - P.min.val) / P.prec.val); rw [abs_of_nonneg hq0] at this; rw [mul_one_div]; exact this)
    hi hfl hlt
    (by have := fl_error (p := p) ((idx P v : ℚ) * P.prec.val); rwa [abs_of_nonneg hnp, div_eq_mul_one_div] at this)
    hb0 (by ring) (abs_le.1 hM.1).1 ((Fl.le_iff.1 h2).trans (abs_le.1 hM.2).2)
    (by have := fl_error (p := p) (fl p ((idx P v : ℚ) * P.prec.val) + P.min.val); rw [div_eq_mul_one_div] at this; rw [g2]; exact this)
  rw [mul_one_div] at key
  refine ⟨_, g, e, g1, ?_, key⟩
  rw [Fl.le_iff, g2]
  exact Fl.le_round (r := nearest p hp) (by linarith)

/-- **C95 (precision).** The actual precision exceeds the desired one at most by the rounding unit, and is more than half of it unless
one step covers the range. -/
theorem C95_precision (h30 : 30 ≤ p) (min max dp : Fl (nearest p hp)) (hdp : 0 < dp) (P : DblParam (Fl (nearest p hp)))
    (hP : Reach min max dp P) :
    P.prec.val * (1 - 1 / 2 ^ p) ≤ dp.val ∧ (P.cs.get ≠ .ok 0 → dp.val < 2 * P.prec.val) := by
  obtain ⟨s, n, w, rfl, rfl, -, c1, c2, c3⟩ := Reach.wfr h30 hP
  have hdp' : 0 < dp.val := hdp
  have hD := sub_pos.2 (Fl.lt_iff.1 w.bounds)
  have hS : (0 : ℚ) < 2 ^ s := by positivity
  have hq0 : 0 ≤ fl p (P.max.val - P.min.val) / dp.val := div_nonneg (fl_nonneg hp hD.le) hdp'.le
  have hq : fl p (P.max.val - P.min.val) = fl p (P.max.val - P.min.val) / dp.val * dp.val := by field_simp
  refine ⟨?_, fun hs => ?_⟩
  · have h1 : fl p (fl p (P.max.val - P.min.val) / dp.val) ≤ 2 ^ s := by
      have := (Int.le_ceil (fl p (fl p (P.max.val - P.min.val) / dp.val)))
      have h2 : ((steps P.min P.max dp : Int) : ℚ) ≤ ((2 ^ s : Int) : ℚ) := by exact_mod_cast c2
      push_cast at h2
      exact this.trans h2
    have h2 := mul_le_fl (p := p) hq0
    rw [w.prec, div_mul_eq_mul_div, div_le_iff₀ hS]
    have h3 : fl p (P.max.val - P.min.val) / dp.val * (1 - 1 / 2 ^ p) ≤ 2 ^ s := h2.trans h1
    have h4 := mul_le_mul_of_nonneg_right h3 hdp'.le
    calc fl p (P.max.val - P.min.val) * (1 - 1 / 2 ^ p)
        = fl p (P.max.val - P.min.val) / dp.val * (1 - 1 / 2 ^ p) * dp.val := by field_simp
      _ ≤ 2 ^ s * dp.val := h4
      _ = dp.val * 2 ^ s := mul_comm _ _
  · have hs0 : s ≠ 0 := by
      intro h0; apply hs; rw [w.cs, h0]; rfl
    obtain ⟨k, rfl⟩ := Nat.exists_eq_succ_of_ne_zero hs0
    have h1 := c3 k (Nat.lt_succ_self k)
    have h2 : ((2 ^ k : Int) : ℚ) < fl p (fl p (P.max.val - P.min.val) / dp.val) := Int.lt_ceil.1 h1
    have h3 : (2 : ℚ) ^ k < fl p (P.max.val - P.min.val) / dp.val := by
      by_contra hc
      have := fl_mono hp (not_lt.1 hc)
      have e := fl_int hp (2 ^ k) (by rw [abs_of_pos (by positivity)]; exact pow_le_pow_right₀ (by norm_num) (by have := w.small; omega))
      push_cast at e h2
      rw [e] at this
      linarith
    rw [lt_div_iff₀ hdp'] at h3
    rw [w.prec, Nat.succ_eq_add_one, pow_succ]
    have : 2 * (fl p (P.max.val - P.min.val) / (2 ^ k * 2)) = fl p (P.max.val - P.min.val) / 2 ^ k := by field_simp
    rw [this, lt_div_iff₀ (by positivity)]
    linarith

/-- **C95 (construction).** Inverted bounds and a start outside the bounds are rejected; otherwise the constructor succeeds exactly when
the rounded number of steps is from 1 to 2^30. -/
theorem C95_constructor (h30 : 30 ≤ p) (d min max dp : Fl (nearest p hp)) :
    (max ≤ min → (new d min max dp).threw) ∧ (min < max → d < min ∨ max < d → (new d min max dp).threw) ∧
    (min < max → min ≤ d → d ≤ max → dp ≠ 0 →
      ((∃ P, new d min max dp = .ok P) ↔ 1 ≤ ⌈((max - min) / dp).val⌉ ∧ ⌈((max - min) / dp).val⌉ ≤ 2 ^ 30)) := by
  refine ⟨fun h => ?_, fun h h2 => ?_, fun h h1 h2 h3 => ⟨?_, ?_⟩⟩
  · unfold new; rw [if_pos h]; trivial
  · unfold new
    rw [if_neg (not_le.2 h), if_pos]
    · trivial
    · simp only [ge_iff_le, Bool.not_and, Bool.or_eq_true, Bool.not_eq_eq_eq_not, Bool.not_true, decide_eq_false_iff_not, not_le]
      exact h2
  · rintro ⟨P, e⟩
    obtain ⟨-, -, -, -, h5, h6⟩ := new_inv h30 e
    exact ⟨h5, h6⟩
  · rintro ⟨h5, h6⟩
    obtain ⟨s, P, e, -⟩ := new_ok h30 h h1 h2 h3 h5 h6
    exact ⟨P, e⟩

/-- **C95 (short bounds).** If the bounds are multiples `A·2^k`, `B·2^k` of a power of two with `p - 31` digits (integers up to four
million for `double`), nothing is rounded: a chromosome decodes to the exact grid point, and setting the decoded value again changes
nothing. -/
theorem C95_exact_grid (h31 : 31 ≤ p) (min max dp : Fl (nearest p hp)) (A B k : Int) (hA : |A| ≤ 2 ^ (p - 31)) (hB : |B| ≤ 2 ^ (p - 31))
    (hmin : min.val = A * 2 ^ k) (hmax : max.val = B * 2 ^ k) (P : DblParam (Fl (nearest p hp))) (hP : Reach min max dp P)
    (chr : List Bool) (hl : P.cs.get = .ok chr.length) :
    ∃ v, (P.setFromChromosome chr).1.getValue = .ok v ∧
      v.val = min.val + bitsVal chr * ((max.val - min.val) / 2 ^ chr.length) ∧
      (P.setFromChromosome chr).1.setValue v = .ok (P.setFromChromosome chr).1 := by
  obtain ⟨s, n, w, rfl, rfl, -⟩ := Reach.wfr (by omega) hP
  have hs : chr.length = s := by rw [w.cs] at hl; simpa [ConstSize.get] using hl.symm
  obtain ⟨e, w'⟩ := w.setFrom chr hs
  have hlt : (bitsVal chr : Int) < 2 ^ s := by rw [← hs]; exact_mod_cast bitsVal_lt chr
  have hn0 : (0 : Int) ≤ bitsVal chr := by positivity
  obtain ⟨g, g1, g2⟩ := w'.getValue h31 (by positivity) hlt.le
  have hs30 := w.small
  obtain ⟨t, rfl⟩ := Nat.exists_eq_add_of_le h31
  rw [Nat.add_sub_cancel_left] at hA hB
  have hA' := abs_le.1 hA
  have hB' := abs_le.1 hB
  have hsI : (2 : Int) ^ s ≤ 2 ^ 30 := pow_le_pow_right₀ (by norm_num) hs30
  have hT : (0 : Int) < 2 ^ t := by positivity
  have epow : (2 : Int) ^ (31 + t) = 2 * 2 ^ 30 * 2 ^ t := by ring
  have h2 : (2 : ℚ) ≠ 0 := by norm_num
  -- the range is exact
  have eD : fl (31 + t) (P.max.val - P.min.val) = (B - A : Int) * 2 ^ k := by
    rw [hmin, hmax, ← sub_mul]
    have := fl_repr (p := 31 + t) (by omega) (B - A) k (by rw [abs_le, epow]; constructor <;> nlinarith)
    push_cast at this ⊢
    exact this
  have hprec : P.prec.val = (B - A : Int) * 2 ^ (k - s) := by
    rw [w.prec, eD, zpow_sub₀ h2, zpow_natCast]; ring
  have hBA : 0 < B - A := by
    have h := w.prec_pos
    rw [hprec] at h
    have := (mul_pos_iff_of_pos_right (zpow_pos two_pos (k - s))).1 h
    exact_mod_cast this
  -- the product is exact
  have ek : (2 : ℚ) ^ k = 2 ^ (k - s) * 2 ^ s := by
    rw [zpow_sub₀ h2, zpow_natCast]; field_simp
  have emul : fl (31 + t) (((bitsVal chr : Int) : ℚ) * P.prec.val) = ((bitsVal chr : Int) * (B - A) : Int) * 2 ^ (k - s) := by
    have := fl_repr (p := 31 + t) (by omega) ((bitsVal chr : Int) * (B - A)) (k - s) (by
      rw [abs_of_nonneg (by positivity), epow]; nlinarith)
    rw [hprec]
    push_cast at this ⊢
    rw [← mul_assoc]; exact this
  -- the sum is exact
  have esum : g.val = ((bitsVal chr : Int) * (B - A) + A * 2 ^ s : Int) * 2 ^ (k - s) := by
    rw [g2]
    simp only
    rw [emul, hmin, ek]
    have := fl_repr (p := 31 + t) (by omega) ((bitsVal chr : Int) * (B - A) + A * 2 ^ s) (k - s) (by
      have u1 : (bitsVal chr : Int) * (B - A) ≤ 2 ^ s * (B - A) := mul_le_mul_of_nonneg_right hlt.le hBA.le
      have u2 : 0 ≤ (bitsVal chr : Int) * (B - A) := by positivity
      have u3 : 2 ^ s * B ≤ 2 ^ 30 * 2 ^ t := (mul_le_mul_of_nonneg_left hB'.2 (by positivity)).trans (mul_le_mul_of_nonneg_right hsI hT.le)
      have u4 : -(2 ^ 30 * 2 ^ t) ≤ 2 ^ s * A := by nlinarith
      rw [abs_le, epow]; constructor <;> nlinarith)
    push_cast at this ⊢
    rw [← this]
    congr 1
    ring
  rw [e]
  refine ⟨g, g1, ?_, ?_⟩
  · rw [esum, hmin, hmax, ek, hs]
    push_cast
    field_simp
    ring
  · have hi : idx P g = bitsVal chr := by
      unfold idx
      have e1 : g.val - P.min.val = ((bitsVal chr : Int) * (B - A) : Int) * 2 ^ (k - s) := by
        rw [esum, hmin, ek]; push_cast; ring
      have e2 : fl (31 + t) (g.val - P.min.val) = ((bitsVal chr : Int) * (B - A) : Int) * 2 ^ (k - s) := by
        rw [e1, ← emul]; exact fl_idem (by omega) _
      have e3 : ((bitsVal chr : Int) * (B - A) : Int) * 2 ^ (k - s) / P.prec.val = ((bitsVal chr : Int) : ℚ) := by
        rw [div_eq_iff w.prec_pos.ne', hprec]; push_cast; ring
      rw [e2, e3, fl_int (by omega) _ (by rw [abs_of_nonneg hn0, epow]; nlinarith)]
      unfold truncZ
      split <;> simp
    have hb := pow_le_30 w.small
    obtain ⟨e5, -⟩ := w'.setValue_ok (v := g) (by
      have : idx _ g = idx P g := rfl
      show -2147483648 ≤ idx P g ∧ idx P g ≤ 2147483647
      rw [hi]; omega)
    rw [e5]
    have : idx { P with base := some ⟨⟨true, s⟩, (bitsVal chr : Int), 0, 2 ^ s⟩ } g = bitsVal chr := hi
    rw [this]

/-! ### In `double` -/

/-- A decimal literal. -/
abbrev lit (x : ℚ) : Fl double := Fl.round double x

theorem new_eq {s : Nat} {d min max dp : Fl double} (hb : min < max) (h1 : min ≤ d) (h2 : d ≤ max) (hdp : dp ≠ 0) (h0 : 1 ≤ steps min max dp)
    (hs : steps min max dp ≤ 2 ^ s) (h30 : s ≤ 30) (hlow : s = 0 ∨ (2 : Int) ^ (s - 1) < steps min max dp) :
    ∃ P, new d min max dp = .ok P ∧ WFr P s (idx P d) ∧ P.min = min ∧ P.max = max := by
  have : (2 : Int) ^ s ≤ 2 ^ 30 := pow_le_pow_right₀ (by norm_num) h30
  obtain ⟨s', P, e, w, e1, e2, e3, e4⟩ := new_ok (by norm_num) hb h1 h2 hdp h0 (by omega)
  have hl : ∀ q < s, (2 : Int) ^ q < steps min max dp := by
    intro q hq
    rcases hlow with h | h
    · omega
    · refine lt_of_le_of_lt (pow_le_pow_right₀ (by norm_num) (by omega)) h
  have : s = s' := least_unique hs hl e3 e4
  subst this
  exact ⟨P, e, w, e1, e2⟩

/-- **C95.** A new parameter can violate its own constraints: a `double` parameter from -3 to 0.1 with precision 0.1 and start 0.1 has
a value above 0.1. -/
theorem C95_start_above_max : ∃ P, new (lit (1 / 10)) (lit (-3)) (lit (1 / 10)) (lit (1 / 10)) = .ok P ∧
    P.checkConstraints = .ok false ∧ ∃ g, P.getValue = .ok g ∧ P.max < g := by
  obtain ⟨P, e, w, e1, e2⟩ := new_eq (s := 5) (d := lit (1 / 10)) (min := lit (-3)) (max := lit (1 / 10)) (dp := lit (1 / 10))
    (by decide +kernel) (by decide +kernel) (by decide +kernel) (by decide +kernel) (by decide +kernel) (by decide +kernel)
    (by norm_num) (by decide +kernel)
  have hi : idx P (lit (1 / 10)) = 32 := by
    unfold idx; rw [w.prec, e1, e2]; decide +kernel
  rw [hi] at w
  obtain ⟨g, g1, g2⟩ := w.getValue (by norm_num) (by norm_num) (by norm_num)
  rw [w.prec, e1, e2] at g2
  have hlt : P.max < g := by
    rw [Fl.lt_iff, g2, e2]; decide +kernel
  refine ⟨P, e, ?_, g, g1, hlt⟩
  rw [check_of_value g1]
  simp [hlt]

/-- **C95.** Setting the value that was just read can move the parameter one step down: from 0.1 to 0.4 in four steps, the third grid
point is read, set, and becomes the second. -/
theorem C95_step_lost : ∃ P P' g g', Reach (lit (1 / 10)) (lit (4 / 10)) (lit (1 / 10)) P ∧ P.getValue = .ok g ∧ P.setValue g = .ok P' ∧
    P'.getValue = .ok g' ∧ g' < g ∧ 74 / 1000 < g.val - g'.val := by
  obtain ⟨P₀, e, w, e1, e2⟩ := new_eq (s := 2) (d := lit (1 / 10)) (min := lit (1 / 10)) (max := lit (4 / 10)) (dp := lit (1 / 10))
    (by decide +kernel) (by decide +kernel) (by decide +kernel) (by decide +kernel) (by decide +kernel) (by decide +kernel)
    (by norm_num) (by decide +kernel)
  obtain ⟨e3, w1⟩ := w.setFrom [false, true] rfl
  have hr : Reach (lit (1 / 10)) (lit (4 / 10)) (lit (1 / 10)) (P₀.setFromChromosome [false, true]).1 :=
    .setFrom (.new e) (by rw [e3]; simp)
  rw [e3] at hr
  simp only at hr
  rw [show ((bitsVal [false, true] : Nat) : Int) = 2 by decide] at hr w1
  obtain ⟨g, g1, g2⟩ := w1.getValue (by norm_num) (by norm_num) (by norm_num)
  simp only at g2
  rw [w.prec, e1, e2] at g2
  have hi : idx { P₀ with base := some ⟨⟨true, 2⟩, 2, 0, 2 ^ 2⟩ } g = 1 := by
    unfold idx
    simp only
    rw [g2, w.prec, e1, e2]; decide +kernel
  obtain ⟨e4, w2⟩ := w1.setValue_ok (v := g) (by rw [hi]; norm_num)
  rw [hi] at e4 w2
  obtain ⟨g', g1', g2'⟩ := w2.getValue (by norm_num) (by norm_num) (by norm_num)
  simp only at g2'
  rw [w.prec, e1, e2] at g2'
  refine ⟨_, _, g, g', hr, g1, e4, g1', ?_, ?_⟩
  · rw [Fl.lt_iff, g2, g2']; decide +kernel
  · rw [g2, g2']; decide +kernel

/-- The premises of `C95_decode` and `C95_setValue` are met: the parameter from -3 to 0.1 has chromosomes of five bits. -/
example : ∃ P, Reach (lit (-3)) (lit (1 / 10)) (lit (1 / 10)) P ∧ P.cs.get = .ok [true, false, true, true, false].length ∧
    lit (-3) ≤ lit (-1 / 2) ∧ lit (-1 / 2) ≤ lit (1 / 10) ∧ |(lit (-3)).val| ≤ 3 ∧ |(lit (1 / 10)).val| ≤ 3 := by
  obtain ⟨P, e, w, e1, e2⟩ := new_eq (s := 5) (d := lit (1 / 10)) (min := lit (-3)) (max := lit (1 / 10)) (dp := lit (1 / 10))
    (by decide +kernel) (by decide +kernel) (by decide +kernel) (by decide +kernel) (by decide +kernel) (by decide +kernel)
    (by norm_num) (by decide +kernel)
  exact ⟨P, .new e, by rw [w.cs]; rfl, by decide +kernel, by decide +kernel, by decide +kernel, by decide +kernel⟩

/-- The premises of `C95_exact_grid` are met by the bounds -1 and 100. -/
example : ∃ P, Reach (lit (-1)) (lit 100) (lit (1 / 10)) P ∧ P.cs.get = .ok (List.replicate 10 true).length ∧
    (lit (-1)).val = (-1 : Int) * 2 ^ (0 : Int) ∧ (lit 100).val = (100 : Int) * 2 ^ (0 : Int) ∧ |(100 : Int)| ≤ 2 ^ (53 - 31) := by
  obtain ⟨P, e, w, e1, e2⟩ := new_eq (s := 10) (d := lit 0) (min := lit (-1)) (max := lit 100) (dp := lit (1 / 10))
    (by decide +kernel) (by decide +kernel) (by decide +kernel) (by decide +kernel) (by decide +kernel) (by decide +kernel)
    (by norm_num) (by decide +kernel)
  exact ⟨P, .new e, by rw [w.cs]; rfl, by decide +kernel, by decide +kernel, by decide +kernel⟩

end RoundParam
end K52
