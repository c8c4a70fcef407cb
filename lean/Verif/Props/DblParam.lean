import Verif.Lemmas.Params
import Verif.Props.IntParam

/-!
# Properties C08–C10 for `DoubleParameter`

`double` is any ordered field with floors (exact arithmetic).
-/

set_option linter.unusedSectionVars false

namespace K52.DblParam

section
variable {R : Type} [Add R] [Sub R] [Mul R] [Div R] [Zero R] [IntCast R] [LinearOrder R] [ToInt R]

/-- The double parameters a program can own for given constructor bounds: the constructor's result, then any sequence
of `SetValue` and `SetFromChromosome` calls (failing ones included). -/
inductive Reach (min max dp : R) : DblParam R → Prop
  | new {d p} : new d min max dp = .ok p → Reach min max dp p
  | setValue {p p' v} : Reach min max dp p → p.setValue v = .ok p' → Reach min max dp p'
  | setFrom {p chr} : Reach min max dp p → (p.setFromChromosome chr).2 ≠ .ub →
      Reach min max dp (p.setFromChromosome chr).1

end

variable {R : Type} [Field R] [LinearOrder R] [IsStrictOrderedRing R] [FloorRing R]


theorem setValue_index {p p' : DblParam R} {s n} (h : WF p s n) {v} (e : p.setValue v = .ok p') :
    (-2147483648 ≤ index p v ∧ index p v ≤ 2147483647) := by
  unfold setValue at e
  rw [if_neg h.prec_pos.ne', Res.bind_eq_ok] at e
  obtain ⟨m, hm, _⟩ := e
  unfold toInt32 at hm
  rw [trunc_eq] at hm
  have := int32_ok.1 hm
  unfold index; omega

/-- All parameters with the same constructor arguments share the chromosome size, bounds and precision. -/
theorem Reach.wf {min max dp : R} {p : DblParam R} (h : Reach min max dp p) :
    ∃ s n, WF p s n ∧ p.min = min ∧ p.max = max ∧ dp ≠ 0 ∧ 1 ≤ ⌈(max - min) / dp⌉ ∧
      ⌈(max - min) / dp⌉ ≤ 2 ^ s ∧ ∀ q < s, (2 : Int) ^ q < ⌈(max - min) / dp⌉ := by
  induction h with
  | new h =>
    obtain ⟨s, h1, h2, h3, _, _, h4⟩ := new_eq_ok h
    exact ⟨s, _, h1, h2, h3, h4⟩
  | setValue h e ih =>
    obtain ⟨s, n, h1, h2, h3, h4⟩ := ih
    obtain ⟨e', h5⟩ := h1.setValue _ (setValue_index h1 e)
    rw [e'] at e; simp at e; subst e
    exact ⟨s, _, h5, h2, h3, h4⟩
  | @setFrom p chr h e ih =>
    obtain ⟨s, n, h1, h2, h3, h4⟩ := ih
    by_cases hl : chr.length = s
    · obtain ⟨e', h5⟩ := h1.setFrom chr hl
      rw [e']; exact ⟨s, _, h5, h2, h3, h4⟩
    · obtain ⟨w, hw⟩ := setFrom_wrong h1 chr hl
      rw [hw]; exact ⟨s, n, h1, h2, h3, h4⟩

theorem least_unique {t : Int} {s s' : Nat} (h1 : t ≤ 2 ^ s) (h2 : ∀ q < s, (2 : Int) ^ q < t)
    (h1' : t ≤ 2 ^ s') (h2' : ∀ q < s', (2 : Int) ^ q < t) : s = s' := by
  rcases lt_trichotomy s s' with h | h | h
  · have := h2' s h; omega
  · exact h
  · have := h2 s' h; omega

/-- Two reachable parameters with the same constructor arguments have the same size. -/
theorem Reach.same {min max dp : R} {p q : DblParam R} (hp : Reach min max dp p) (hq : Reach min max dp q) :
    ∃ s n m, WF p s n ∧ WF q s m ∧ p.min = min ∧ q.min = min ∧ p.max = max ∧ q.max = max ∧ p.prec = q.prec := by
  obtain ⟨s, n, h1, h2, h3, _, _, h4, h5⟩ := hp.wf
  obtain ⟨s', m, h1', h2', h3', _, _, h4', h5'⟩ := hq.wf
  have := least_unique h4 h5 h4' h5'
  subst this
  exact ⟨s, n, m, h1, h1', h2, h2', h3, h3', by rw [h1.prec, h1'.prec, h2, h3, h2', h3']⟩

/-- **C09 (precision).** The constructor's actual precision is positive and at most the desired one; it is more than
half of the desired one unless the whole range fits in one step. -/
theorem C09_precision (d min max dp : R) (p : DblParam R) (h : new d min max dp = .ok p) :
    0 < p.prec ∧ p.prec ≤ dp ∧ (dp < 2 * p.prec ∨ p.prec = max - min) := by
  obtain ⟨s, h1, h2, h3, _, _, h4, h5, h6, h7⟩ := new_eq_ok h
  have hb : min < max := by rw [← h2, ← h3]; exact h1.bounds
  have hr : 0 < max - min := sub_pos.2 hb
  have hq : 0 < (max - min) / dp := by
    have := Int.lt_of_lt_of_le Int.zero_lt_one h5
    exact Int.ceil_pos.1 this
  have hdp : 0 < dp := by
    rcases div_pos_iff.1 hq with h | h
    · exact h.2
    · exact absurd h.1 (not_lt.2 hr.le)
  have hprec : p.prec = (max - min) / 2 ^ s := by rw [h1.prec, h2, h3]
  have hle : (max - min) / dp ≤ 2 ^ s := by
    have : ((⌈(max - min) / dp⌉ : Int) : R) ≤ ((2 ^ s : Int) : R) := by exact_mod_cast h6
    push_cast at this
    exact (Int.le_ceil _).trans this
  refine ⟨h1.prec_pos, ?_, ?_⟩
  · rw [hprec, div_le_iff₀ (by positivity)]
    rw [div_le_iff₀ hdp] at hle
    linarith
  · cases s with
    | zero => right; rw [hprec]; simp
    | succ k =>
      left
      have := h7 k (by omega)
      have h8 : ((2 ^ k : Int) : R) < (max - min) / dp := Int.lt_ceil.1 this
      push_cast at h8
      rw [lt_div_iff₀ hdp] at h8
      rw [hprec, pow_succ, ← mul_div_assoc, lt_div_iff₀ (by positivity)]
      linarith

/-- **C09 (quantisation).** For every value of `[min, max)`, setting it stores a grid point `g` at most one precision
below it and inside the bounds; the constraints hold; `g` is stable under being set again; and `g` survives
the trip through a chromosome into any other parameter built with the same arguments. -/
theorem C09_quantisation (min max dp : R) (p q : DblParam R) (hp : Reach min max dp p) (hq : Reach min max dp q)
    (v : R) (h1 : min ≤ v) (h2 : v < max) (chr : List Bool) (hl : p.cs.get = .ok chr.length) :
    ∃ p' g, p.setValue v = .ok p' ∧ p'.getValue = .ok g ∧
      g ≤ v ∧ v < g + p.prec ∧ min ≤ g ∧ g < max ∧ p'.checkConstraints = .ok true ∧
      (∃ p'', p.setValue g = .ok p'' ∧ p''.getValue = .ok g) ∧
      ∃ out, p'.setChromosome chr = .ok out ∧ out.length = chr.length ∧
        (q.setFromChromosome out).2 = .ok () ∧ (q.setFromChromosome out).1.getValue = .ok g := by
  obtain ⟨s, n, m, wp, wq, e1, e2, e3, e4, e5⟩ := hp.same hq
  have hsmall := pow_le_30 wp.small
  have hr := wp.index_range (v := v) (by rw [e1]; exact h1) (by rw [e3]; exact h2.le)
  have hlt := hr.2.2.1 (by rw [e3]; exact h2)
  obtain ⟨es, ws⟩ := wp.setValue v (by omega)
  have hgrid := wp.index_grid (index p v)
  obtain ⟨es2, ws2⟩ := wp.setValue ((index p v : R) * p.prec + p.min) (by rw [hgrid]; omega)
  have hl' : chr.length = s := by rw [wp.cs] at hl; simp [ConstSize.get] at hl; exact hl.symm
  obtain ⟨out, eo, ho1, ho2⟩ := ws.setChromosome (by omega) chr hl'
  obtain ⟨ed, wd⟩ := wq.setFrom out ho1
  have hbits : (bitsVal out : Int) = index p v := by
    rw [ho2]; exact Int.emod_eq_of_lt hr.1 hlt
  refine ⟨_, (index p v : R) * p.prec + p.min, es, ws.getValue, hr.2.2.2.1, hr.2.2.2.2, ?_, ?_, ?_, ?_, ?_⟩
  · have : (0 : R) ≤ index p v := by exact_mod_cast hr.1
    have := mul_nonneg this wp.prec_pos.le
    rw [e1]; linarith
  · exact lt_of_le_of_lt hr.2.2.2.1 h2
  · rw [ws.checkConstraints]; simp [hr.1, hr.2.1]
  · refine ⟨_, es2, ?_⟩
    rw [ws2.getValue, hgrid]
  · refine ⟨out, eo, by omega, by rw [ed], ?_⟩
    rw [ed]
    simp only
    rw [wd.getValue]
    have : ((bitsVal out : Int) : R) = (index p v : R) := by rw [hbits]
    simp only [e2, e1, e5, this]

/-- **C10.** The upper bound is accepted by `SetValue` and satisfies the constraints, but for every double parameter
encoding and decoding it yields the *lower* bound. -/
theorem C10_upper_bound_lost (min max dp : R) (p : DblParam R) (hp : Reach min max dp p)
    (chr : List Bool) (hl : p.cs.get = .ok chr.length) :
    ∃ p', p.setValue max = .ok p' ∧ p'.getValue = .ok max ∧ p'.checkConstraints = .ok true ∧
      ∃ out, p'.setChromosome chr = .ok out ∧
        (p'.setFromChromosome out).2 = .ok () ∧ (p'.setFromChromosome out).1.getValue = .ok min ∧ min < max := by
  obtain ⟨s, n, m, wp, _, e1, _, e3, _, _⟩ := hp.same hp
  have hsmall := pow_le_30 wp.small
  have hidx : index p max = 2 ^ s := by
    have := wp.index_grid (2 ^ s)
    push_cast at this
    rw [← wp.max_eq, e3] at this
    exact this
  have hpos : (0 : Int) < 2 ^ s := by positivity
  obtain ⟨es, ws⟩ := wp.setValue max (by omega)
  have hl' : chr.length = s := by rw [wp.cs] at hl; simp [ConstSize.get] at hl; exact hl.symm
  obtain ⟨out, eo, ho1, ho2⟩ := ws.setChromosome (by omega) chr hl'
  obtain ⟨ed, wd⟩ := ws.setFrom out ho1
  rw [hidx] at ho2
  simp only [Int.emod_self] at ho2
  refine ⟨_, es, ?_, ?_, out, eo, by rw [ed], ?_, by rw [← e1, ← e3]; exact wp.bounds⟩
  · rw [ws.getValue, hidx]; push_cast; simp only [← wp.max_eq, e3]
  · rw [ws.checkConstraints, hidx]; simp
  · rw [ed]
    rw [wd.getValue]
    have : ((bitsVal out : Int) : R) = 0 := by rw [ho2]; simp
    rw [this]; simp [e1]

/-- **C10 (partial positive form).** Every decoded value lies in `[min, max)`, hence satisfies the constraints. -/
theorem C10_decoded_in_bounds (min max dp : R) (p : DblParam R) (hp : Reach min max dp p)
    (chr : List Bool) (hl : p.cs.get = .ok chr.length) :
    ∃ g, (p.setFromChromosome chr).2 = .ok () ∧ (p.setFromChromosome chr).1.getValue = .ok g ∧ min ≤ g ∧ g < max ∧
      (p.setFromChromosome chr).1.checkConstraints = .ok true ∧ g = min + (bitsVal chr : R) * p.prec := by
  obtain ⟨s, n, m, wp, _, e1, _, e3, _, _⟩ := hp.same hp
  have hl' : chr.length = s := by rw [wp.cs] at hl; simp [ConstSize.get] at hl; exact hl.symm
  obtain ⟨ed, wd⟩ := wp.setFrom chr hl'
  have hlt : bitsVal chr < 2 ^ s := by rw [← hl']; exact bitsVal_lt chr
  refine ⟨_, by rw [ed], by rw [ed]; exact wd.getValue, ?_, ?_, ?_, ?_⟩
  · have : (0 : R) ≤ ((bitsVal chr : Int) : R) := by exact_mod_cast Nat.zero_le _
    have := mul_nonneg this wp.prec_pos.le
    simp only [e1]; linarith
  · have : ((bitsVal chr : Int) : R) < 2 ^ s := by exact_mod_cast hlt
    have := mul_lt_mul_of_pos_right this wp.prec_pos
    have := wp.max_eq
    simp only [← e3]
    linarith
  · rw [ed, wd.checkConstraints]
    have : (bitsVal chr : Int) ≤ 2 ^ s := by exact_mod_cast hlt.le
    simp [this]
  · simp [e1, add_comm]

/-- Non-vacuity for C09/C10: `DoubleParameter(0.5, 0, 1, 0.3)` over ℚ exists (4 steps of 0.25, 2 bits). -/
theorem exists_param : ∃ p : DblParam ℚ, new (1/2) 0 1 (3/10) = .ok p ∧ p.cs.get = .ok 2 ∧ p.prec = 1/4 := by
  have hc : ⌈((1 : ℚ) - 0) / (3 / 10)⌉ = 4 := by norm_num [Int.ceil_eq_iff]
  have hm : getMaxInt (0 : ℚ) 1 (3/10) = .ok 4 := by
    unfold getMaxInt
    rw [if_neg (by norm_num), ceil_eq, hc]
    rfl
  have hb : countBestMaxInt 4 = .ok 4 := by
    unfold countBestMaxInt
    rw [bestLoop]; norm_num
    rw [bestLoop]; norm_num
    rw [bestLoop]; norm_num
  have hs : IntParam.newMin 0 4 = .ok ⟨⟨true, 2⟩, 0, 0, 4⟩ := by
    have := IntParam.new_of_count 0 (count_pow 2 (by norm_num))
    norm_num at this
    exact this
  have ht : toInt32 (((1 : ℚ)/2 - 0) / ((1 - 0) / ((4 : Int) : ℚ))) = .ok 2 := by
    have e : (((1 : ℚ)/2 - 0) / ((1 - 0) / ((4 : Int) : ℚ))) = ((2 : Int) : ℚ) := by norm_num
    rw [e]
    unfold toInt32
    rw [trunc_eq]
    unfold truncZ
    rw [if_pos (by norm_num), Int.floor_intCast]
    rfl
  refine ⟨⟨⟨true, 2⟩, some ⟨⟨true, 2⟩, 2, 0, 4⟩, 0, 1, 1/4⟩, ?_, rfl, rfl⟩
  unfold new
  rw [if_neg (by norm_num), if_neg (by norm_num), hm]
  simp only [Res.ok_bind, hb, hs, setValue, ht]
  rw [if_neg (by norm_num)]
  simp [ConstSize.get, ConstSize.set, ConstSize.new, IntParam.setValue]

example : ∃ p : DblParam ℚ, Reach 0 1 (3/10) p ∧ p.cs.get = .ok [true, false].length := by
  obtain ⟨p, h, h2, _⟩ := exists_param
  exact ⟨p, .new h, h2⟩

/-- **C08 (double).** A range of the wrong length is rejected by both conversions and the parameter is unchanged. -/
theorem C08_wrong_length_dbl (min max dp : R) (p : DblParam R) (hp : Reach min max dp p) (chr : List Bool)
    (h : p.cs.get ≠ .ok chr.length) :
    (p.setChromosome chr).threw ∧ (p.setFromChromosome chr).2.threw ∧ (p.setFromChromosome chr).1 = p := by
  obtain ⟨s, n, wp, _⟩ := hp.wf
  have hl : chr.length ≠ s := by
    intro e; apply h; rw [wp.cs]; simp [ConstSize.get, e]
  obtain ⟨w, hw⟩ := setFrom_wrong wp chr hl
  refine ⟨setChr_wrong wp chr hl, ?_, ?_⟩ <;> rw [hw]
  trivial

/-- **C09 (construction).** The constructor rejects exactly inverted/empty ranges, initial values outside the range, and
precisions that are not positive (zero precision is a conversion of an infinity: undefined); it overflows
when the number of steps exceeds 2^30. -/
theorem C09_constructor (d min max dp : R) :
    (max ≤ min → (new d min max dp).threw) ∧
    (min < max → (d < min ∨ max < d) → (new d min max dp).threw) ∧
    (min < max → min ≤ d → d ≤ max → dp < 0 → (-2147483648 : R) < (max - min) / dp → (new d min max dp).threw) ∧
    (min < max → min ≤ d → d ≤ max → dp = 0 → new d min max dp = .ub) ∧
    (min < max → min ≤ d → d ≤ max → 0 < dp → (max - min) / dp ≤ 1073741824 →
        ∃ p, new d min max dp = .ok p) ∧
    (min < max → min ≤ d → d ≤ max → 0 < dp → 1073741824 < (max - min) / dp → new d min max dp = .ub) := by
  have hdec : min ≤ d → d ≤ max → ¬ ((!(decide (d ≥ min) && decide (d ≤ max))) = true) := by
    intro h1 h2; simp [h1, h2]
  refine ⟨?_, ?_, ?_, ?_, ?_, ?_⟩
  · intro h; unfold new; rw [if_pos h]; trivial
  · intro h h2; unfold new
    rw [if_neg (not_le.2 h), if_pos]
    · trivial
    · simp only [ge_iff_le, Bool.not_and, Bool.or_eq_true, Bool.not_eq_eq_eq_not, Bool.not_true, decide_eq_false_iff_not, not_le]
      exact h2
  · intro h h1 h2 h3 h4
    unfold new
    rw [if_neg (not_le.2 h), if_neg (hdec h1 h2)]
    have hneg : (max - min) / dp < 0 := div_neg_of_pos_of_neg (sub_pos.2 h) h3
    have c1 : ⌈(max - min) / dp⌉ ≤ 0 := Int.ceil_le.2 (by simpa using hneg.le)
    have c2 : (-2147483648 : Int) < ⌈(max - min) / dp⌉ := Int.lt_ceil.2 (by push_cast; exact h4)
    have : getMaxInt min max dp = .throw "invalid_argument" := by
      unfold getMaxInt
      rw [if_neg h3.ne, ceil_eq, int32_ok.2 ⟨rfl, by omega, by omega⟩, Res.ok_bind, if_pos (by omega)]
    rw [this]; trivial
  · intro h h1 h2 h3
    unfold new
    rw [if_neg (not_le.2 h), if_neg (hdec h1 h2)]
    have : getMaxInt min max dp = .ub := by unfold getMaxInt; rw [if_pos h3]
    rw [this]; rfl
  · intro h h1 h2 h3 h4
    unfold new
    rw [if_neg (not_le.2 h), if_neg (hdec h1 h2)]
    have hpos : 0 < (max - min) / dp := div_pos (sub_pos.2 h) h3
    have c1 : 0 < ⌈(max - min) / dp⌉ := Int.ceil_pos.2 hpos
    have c2 : ⌈(max - min) / dp⌉ ≤ 1073741824 := Int.ceil_le.2 (by push_cast; exact h4)
    have e1 : getMaxInt min max dp = .ok ⌈(max - min) / dp⌉ := by
      unfold getMaxInt
      rw [if_neg h3.ne', ceil_eq, int32_ok.2 ⟨rfl, by omega, by omega⟩]
      simp; omega
    obtain ⟨s, e2, hs, _, _⟩ := (bestLoop_spec ⌈(max - min) / dp⌉ 1 (by decide) 0 (by norm_num) (by decide) (by simp)).1
      (by norm_num; exact c2)
    have e3 : IntParam.newMin 0 (2 ^ s) = .ok ⟨⟨true, s⟩, 0, 0, 2 ^ s⟩ := IntParam.new_of_count 0 (count_pow s hs)
    have key : WF (⟨⟨true, s⟩, some ⟨⟨true, s⟩, 0, 0, 2 ^ s⟩, min, max, (max - min) / ((2 ^ s : Int) : R)⟩ : DblParam R) s 0 :=
      ⟨rfl, rfl, hs, h, by push_cast; rfl⟩
    have hidx := key.index_range (v := d) h1 h2
    have hset := key.setValue d (by have := pow_le_30 hs; omega)
    rw [e1]
    simp only [Res.ok_bind, countBestMaxInt, e2, e3]
    have hset1 := hset.1
    unfold setValue at hset1 ⊢
    rw [if_neg key.prec_pos.ne'] at hset1 ⊢
    rw [Res.bind_eq_ok] at hset1
    obtain ⟨n, en, _⟩ := hset1
    simp only at en ⊢
    rw [en]
    simp [ConstSize.get, ConstSize.set, ConstSize.new]
  · intro h h1 h2 h3 h4
    unfold new
    rw [if_neg (not_le.2 h), if_neg (hdec h1 h2)]
    have c2 : 1073741824 < ⌈(max - min) / dp⌉ := Int.lt_ceil.2 (by push_cast; exact h4)
    have : (getMaxInt min max dp >>= fun m => countBestMaxInt m) = .ub := by
      unfold getMaxInt
      rw [if_neg h3.ne', ceil_eq]
      rcases int32_cases ⌈(max - min) / dp⌉ with e | e <;> rw [e]
      · simp only [Res.ok_bind]
        rw [if_neg (by omega)]
        simp only [Res.pure_eq, Res.ok_bind]
        exact (bestLoop_spec _ 1 (by decide) 0 (by norm_num) (by decide) (by simp)).2 (by norm_num; exact c2)
      · rfl
    cases hg : getMaxInt min max dp with
    | ok m =>
      rw [hg] at this
      simp only [Res.ok_bind] at this ⊢
      rw [this]; rfl
    | throw w => rw [hg] at this; cases this
    | ub => rfl

end K52.DblParam
