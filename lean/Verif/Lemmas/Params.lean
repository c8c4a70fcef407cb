import Verif.Model.Params
import Verif.Lemmas.IntParam
import Mathlib.Tactic.FieldSimp
import Mathlib.Tactic.Positivity
import Mathlib.Algebra.Order.Field.Basic

set_option linter.unusedSectionVars false

namespace K52

variable {R : Type} [Field R] [LinearOrder R] [IsStrictOrderedRing R] [FloorRing R]

namespace DblParam

theorem bestLoop_spec (t x : Int) (hx : 0 < x) (p : Nat) (hxp : x = 2 ^ p) (hp : p ≤ 30)
    (hlow : ∀ q < p, (2 : Int) ^ q < t) :
    (t ≤ 2 ^ 30 → ∃ s : Nat, bestLoop t x hx = .ok (2 ^ s) ∧ s ≤ 30 ∧ t ≤ 2 ^ s ∧
        ∀ q < s, (2 : Int) ^ q < t) ∧
    (2 ^ 30 < t → bestLoop t x hx = .ub) := by
  fun_induction bestLoop t x hx generalizing p with
  | case1 x hx h1 h2 ih =>
    have hp' : p + 1 ≤ 30 := by
      by_contra hc
      have : p = 30 := by omega
      subst this
      rw [hxp] at h2
      norm_num at h2
    refine ih (p + 1) (by rw [hxp]; ring) hp' ?_
    intro q hq
    rcases Nat.lt_or_ge q p with h | h
    · exact hlow q h
    · have : q = p := by omega
      subst this; rw [← hxp]; exact h1
  | case2 x hx h1 h2 =>
    have hp' : p = 30 := by
      by_contra hc
      have h29 : p ≤ 29 := by omega
      apply h2
      rw [hxp]
      have : (2 : Int) ^ p ≤ 2 ^ 29 := pow_le_pow_right₀ (by norm_num) h29
      norm_num at this ⊢
      linarith
    subst hp'
    refine ⟨fun h => ?_, fun _ => rfl⟩
    rw [← hxp] at h
    omega
  | case3 x hx h1 =>
    refine ⟨fun _ => ⟨p, by rw [hxp], hp, by rw [← hxp]; omega, hlow⟩, fun h => ?_⟩
    exfalso
    have : (2 : Int) ^ p ≤ 2 ^ 30 := pow_le_pow_right₀ (by norm_num) hp
    omega

theorem best_eq_ok {t b : Int} (h : countBestMaxInt t = .ok b) :
    ∃ s : Nat, b = 2 ^ s ∧ s ≤ 30 ∧ t ≤ 2 ^ s ∧ ∀ q < s, (2 : Int) ^ q < t := by
  have := bestLoop_spec t 1 (by decide) 0 (by norm_num) (by decide) (by simp)
  unfold countBestMaxInt at h
  rcases le_or_gt t (2 ^ 30) with hle | hgt
  · obtain ⟨s, hs, r⟩ := this.1 hle
    rw [hs] at h
    exact ⟨s, by simpa using h.symm, r⟩
  · rw [this.2 hgt] at h; cases h

theorem count_pow (k : Nat) (hk : k ≤ 30) : IntParam.countChromosomeSize 0 (2 ^ k) = .ok k := by
  have hpos : (0 : Int) < 2 ^ k := by positivity
  have hle : (2 : Int) ^ k ≤ 2 ^ 30 := pow_le_pow_right₀ (by norm_num) hk
  obtain ⟨s, hs, h3, h4, h5⟩ := IntParam.count_ok 0 (2 ^ k) (by omega) (by omega)
  have hsk : s = k := by
    rcases lt_trichotomy s k with h | h | h
    · have : (2 : Int) ^ s < 2 ^ k := pow_lt_pow_right₀ (by norm_num) h
      omega
    · exact h
    · have := h5 k h; omega
  rw [hs, hsk]

/-- Well-formed double parameter: what the constructor and the mutators maintain. -/
structure WF (p : DblParam R) (s : Nat) (n : Int) : Prop where
  cs : p.cs = ⟨true, s⟩
  base : p.base = some ⟨⟨true, s⟩, n, 0, 2 ^ s⟩
  small : s ≤ 30
  bounds : p.min < p.max
  prec : p.prec = (p.max - p.min) / 2 ^ s

theorem WF.prec_pos {p : DblParam R} {s : Nat} {n : Int} (h : WF p s n) : 0 < p.prec := by
  rw [h.prec]; exact div_pos (sub_pos.2 h.bounds) (by positivity)

theorem WF.max_eq {p : DblParam R} {s : Nat} {n : Int} (h : WF p s n) : p.max = 2 ^ s * p.prec + p.min := by
  rw [h.prec, mul_div_cancel₀ _ (by positivity)]; ring

theorem truncZ_nonneg {x : R} (h : 0 ≤ x) : truncZ x = ⌊x⌋ := if_pos h

theorem truncZ_nonneg' {x : R} (h : 0 ≤ x) : 0 ≤ truncZ x := by
  rw [truncZ_nonneg h]; exact Int.floor_nonneg.2 h

/-- the grid index of a value -/
def index (p : DblParam R) (v : R) : Int := truncZ ((v - p.min) / p.prec)

theorem WF.setValue {p : DblParam R} {s : Nat} {n : Int} (h : WF p s n) (v : R) (hv : -2147483648 ≤ index p v ∧ index p v ≤ 2147483647) :
    p.setValue v = .ok { p with base := some ⟨⟨true, s⟩, index p v, 0, 2 ^ s⟩ } ∧
    WF { p with base := some ⟨⟨true, s⟩, index p v, 0, 2 ^ s⟩ } s (index p v) := by
  refine ⟨?_, ⟨h.cs, rfl, h.small, h.bounds, h.prec⟩⟩
  have h1 : toInt32 ((v - p.min) / p.prec) = .ok (index p v) := int32_ok.2 ⟨rfl, hv⟩
  unfold DblParam.setValue
  rw [if_neg h.prec_pos.ne', h1, h.base]
  rfl

theorem WF.index_range {p : DblParam R} {s : Nat} {n : Int} (h : WF p s n) {v : R} (h1 : p.min ≤ v) (h2 : v ≤ p.max) :
    0 ≤ index p v ∧ index p v ≤ 2 ^ s ∧ (v < p.max → index p v < 2 ^ s) ∧
      (index p v : R) * p.prec + p.min ≤ v ∧ v < (index p v : R) * p.prec + p.min + p.prec := by
  have hp := h.prec_pos
  have h0 : 0 ≤ (v - p.min) / p.prec := div_nonneg (sub_nonneg.2 h1) hp.le
  have he : index p v = ⌊(v - p.min) / p.prec⌋ := truncZ_nonneg h0
  have hx : (v - p.min) / p.prec * p.prec = v - p.min := div_mul_cancel₀ _ hp.ne'
  have hfl := Int.floor_le ((v - p.min) / p.prec)
  have hlt := Int.lt_floor_add_one ((v - p.min) / p.prec)
  rw [← he] at hfl hlt
  have hmx : (p.max - p.min) / p.prec = 2 ^ s := by
    rw [h.max_eq]; field_simp; ring
  have hle : (v - p.min) / p.prec ≤ 2 ^ s := by
    rw [← hmx]; exact div_le_div_of_nonneg_right (by linarith) hp.le
  refine ⟨?_, ?_, ?_, ?_, ?_⟩
  · rw [he]; exact Int.floor_nonneg.2 h0
  · have : (index p v : R) ≤ ((2 ^ s : Int) : R) := by push_cast; linarith
    exact_mod_cast this
  · intro hlt'
    have : (v - p.min) / p.prec < 2 ^ s := by
      rw [← hmx]; exact div_lt_div_of_pos_right (by linarith) hp
    have : (index p v : R) < ((2 ^ s : Int) : R) := by push_cast; linarith
    exact_mod_cast this
  · have := mul_le_mul_of_nonneg_right hfl hp.le
    rw [hx] at this; linarith
  · have := mul_lt_mul_of_pos_right hlt hp
    rw [hx] at this; linarith

theorem pow_le_30 {s : Nat} (h : s ≤ 30) : (2 : Int) ^ s ≤ 1073741824 := by
  have : (2 : Int) ^ s ≤ 2 ^ 30 := pow_le_pow_right₀ (by norm_num) h
  norm_num at this; exact this

theorem new_eq_ok {d min max dp : R} {p : DblParam R} (h : new d min max dp = .ok p) :
    ∃ s, WF p s (index p d) ∧ p.min = min ∧ p.max = max ∧ min ≤ d ∧ d ≤ max ∧ dp ≠ 0 ∧
      1 ≤ ⌈(max - min) / dp⌉ ∧ ⌈(max - min) / dp⌉ ≤ 2 ^ s ∧ ∀ q < s, (2 : Int) ^ q < ⌈(max - min) / dp⌉ := by
  unfold new at h
  split at h
  · cases h
  · next hb =>
    split at h
    · cases h
    · next hd =>
      simp only [not_le] at hb
      simp at hd
      rw [Res.bind_eq_ok] at h
      obtain ⟨m, hm, h⟩ := h
      unfold getMaxInt at hm
      split at hm
      · cases hm
      · next hdp =>
        rw [Res.bind_eq_ok] at hm
        obtain ⟨m', hm1, hm2⟩ := hm
        split at hm2
        · cases hm2
        · next hge =>
          simp at hm2; subst hm2
          rw [ceil_eq] at hm1
          have hm3 := int32_ok.1 hm1
          rw [Res.bind_eq_ok] at h
          obtain ⟨b, hbst, h⟩ := h
          obtain ⟨s, rfl, hs30, hle, hlow⟩ := best_eq_ok hbst
          rw [Res.bind_eq_ok] at h
          obtain ⟨base, hbase, h⟩ := h
          unfold IntParam.newMin at hbase
          rw [IntParam.new_of_count 0 (count_pow s hs30)] at hbase
          simp at hbase
          rw [Res.bind_eq_ok] at h
          obtain ⟨p1, hp1, h⟩ := h
          -- the object before the size is set; use a twin with the size set
          have key : WF (⟨⟨true, s⟩, some base, min, max, (max - min) / ((2 ^ s : Int) : R)⟩ : DblParam R) s 0 :=
            ⟨rfl, by simp [← hbase], hs30, hb, by push_cast; rfl⟩
          have hidx := key.index_range (v := d) hd.1 hd.2
          have hset := key.setValue d (by have := pow_le_30 hs30; omega)
          have hp1' : p1 = ⟨ConstSize.new, some ⟨⟨true, s⟩, index (⟨⟨true, s⟩, some base, min, max, (max - min) / ((2 ^ s : Int) : R)⟩ : DblParam R) d, 0, 2 ^ s⟩, min, max, (max - min) / ((2 ^ s : Int) : R)⟩ := by
            unfold setValue at hp1 hset
            rw [if_neg key.prec_pos.ne'] at hset hp1
            simp only [Res.bind_eq_ok] at hset hp1
            obtain ⟨⟨n1, e1, e2⟩, _⟩ := hset
            obtain ⟨n2, e3, e4⟩ := hp1
            rw [e1] at e3
            simp at e3 e4 e2
            subst e3
            rw [← e4, e2]; simp
          rw [Res.bind_eq_ok] at h
          obtain ⟨s', hs', h⟩ := h
          rw [← hbase] at hs'
          simp [ConstSize.get] at hs'
          subst hs'
          rw [hp1'] at h
          simp [ConstSize.set, ConstSize.new] at h
          subst h
          refine ⟨s, ⟨rfl, rfl, hs30, hb, by push_cast; rfl⟩, rfl, rfl, hd.1, hd.2, hdp, ?_, ?_, ?_⟩
          · omega
          · rw [hm3.1]; exact hle
          · rw [hm3.1]; exact hlow

end DblParam
end K52

namespace K52
variable {R : Type} [Field R] [LinearOrder R] [IsStrictOrderedRing R] [FloorRing R]
namespace DblParam

theorem WF.getValue {p : DblParam R} {s : Nat} {n : Int} (h : WF p s n) :
    p.getValue = .ok ((n : R) * p.prec + p.min) := by
  unfold DblParam.getValue; rw [h.base]

theorem WF.checkConstraints {p : DblParam R} {s : Nat} {n : Int} (h : WF p s n) :
    p.checkConstraints = .ok (decide (0 ≤ n ∧ n ≤ 2 ^ s)) := by
  unfold DblParam.checkConstraints
  rw [h.getValue]
  simp only [Res.ok_bind, Res.pure_eq, Res.ok.injEq, checkBounds, ge_iff_le]
  have hp := h.prec_pos
  have e1 : p.min ≤ (n : R) * p.prec + p.min ↔ 0 ≤ n := by
    constructor
    · intro h1
      have : 0 ≤ (n : R) * p.prec := by linarith
      have := nonneg_of_mul_nonneg_left this hp
      exact_mod_cast this
    · intro h1
      have : (0 : R) ≤ n := by exact_mod_cast h1
      have := mul_nonneg this hp.le
      linarith
  have e2 : (n : R) * p.prec + p.min ≤ p.max ↔ n ≤ 2 ^ s := by
    rw [h.max_eq]
    constructor
    · intro h1
      have : (n : R) * p.prec ≤ 2 ^ s * p.prec := by linarith
      have := le_of_mul_le_mul_right this hp
      have h3 : (n : R) ≤ ((2 ^ s : Int) : R) := by push_cast; exact this
      exact_mod_cast h3
    · intro h1
      have h3 : (n : R) ≤ ((2 ^ s : Int) : R) := by exact_mod_cast h1
      push_cast at h3
      have := mul_le_mul_of_nonneg_right h3 hp.le
      linarith
  rw [Bool.and_eq_decide]
  congr 1
  simp [e1, e2]

theorem WF.index_grid {p : DblParam R} {s : Nat} {n : Int} (h : WF p s n) (m : Int) :
    index p ((m : R) * p.prec + p.min) = m := by
  unfold index
  have : ((m : R) * p.prec + p.min - p.min) / p.prec = (m : R) := by
    rw [add_sub_cancel_right, mul_div_cancel_right₀ _ h.prec_pos.ne']
  rw [this]
  unfold truncZ
  split <;> simp

theorem WF.setChromosome {p : DblParam R} {s : Nat} {n : Int} (h : WF p s n)
    (hn : -2147483648 ≤ n ∧ n ≤ 2147483647) (chr : List Bool) (hl : chr.length = s) :
    ∃ out, p.setChromosome chr = .ok out ∧ out.length = s ∧ (bitsVal out : Int) = n % 2 ^ s := by
  obtain ⟨out, e, h1, h2⟩ := IntParam.setChromosome_spec (p := ⟨⟨true, s⟩, n, 0, 2 ^ s⟩) rfl h.small
    (by simpa using hn) chr hl
  refine ⟨out, ?_, h1, by simpa using h2⟩
  unfold DblParam.setChromosome
  rw [h.base]
  exact e

theorem WF.setFrom {p : DblParam R} {s : Nat} {n : Int} (h : WF p s n) (chr : List Bool) (hl : chr.length = s) :
    p.setFromChromosome chr = ({ p with base := some ⟨⟨true, s⟩, bitsVal chr, 0, 2 ^ s⟩ }, .ok ()) ∧
    WF { p with base := some ⟨⟨true, s⟩, bitsVal chr, 0, 2 ^ s⟩ } s (bitsVal chr) := by
  have hlt : (bitsVal chr : Int) < 2 ^ s := by rw [← hl]; exact_mod_cast bitsVal_lt chr
  have := pow_le_30 h.small
  have e := IntParam.setFrom_spec (p := ⟨⟨true, s⟩, n, 0, 2 ^ s⟩) rfl h.small chr hl (by simp only; omega)
  refine ⟨?_, ⟨h.cs, rfl, h.small, h.bounds, h.prec⟩⟩
  unfold DblParam.setFromChromosome
  rw [h.base]
  simp only [e, add_zero]

theorem setFrom_wrong {p : DblParam R} {s : Nat} {n : Int} (h : WF p s n) (chr : List Bool) (hl : chr.length ≠ s) :
    ∃ w, p.setFromChromosome chr = (p, .throw w) := by
  refine ⟨"invalid_argument", ?_⟩
  have hb := h.base
  unfold DblParam.setFromChromosome
  rw [hb]
  simp only [IntParam.setFromChromosome, ConstSize.check, if_pos hl, if_true]
  cases p
  simp_all

theorem setChr_wrong {p : DblParam R} {s : Nat} {n : Int} (h : WF p s n) (chr : List Bool) (hl : chr.length ≠ s) :
    (p.setChromosome chr).threw := by
  unfold DblParam.setChromosome
  rw [h.base]
  simp [IntParam.setChromosome, ConstSize.check, hl]

end DblParam
end K52
