import Verif.Lemmas.ArrParam
import Verif.Props.DblParam

/-!
# Properties C08, C11, C12 for `DoubleParametersArray`
-/

set_option linter.unusedSectionVars false

namespace K52.ArrParam

section
variable {R : Type} [Add R] [Sub R] [Mul R] [Div R] [Zero R] [IntCast R] [LinearOrder R] [ToInt R]

/-- The arrays a program can own: constructor, then any sequence of `SetValues` / `SetFromChromosome` calls,
including ones that threw. -/
inductive Reach (min max dp : R) (k : Nat) : ArrParam R → Prop
  | new {a} : new min max dp k = .ok a → Reach min max dp k a
  | setValues {a vs} : Reach min max dp k a → (a.setValues vs).2 ≠ .ub → Reach min max dp k (a.setValues vs).1
  | setFrom {a chr} : Reach min max dp k a → (a.setFromChromosome chr).2 ≠ .ub →
      Reach min max dp k (a.setFromChromosome chr).1

theorem setValues_fst (a : ArrParam R) (vs : List R) :
    (a.setValues vs).1 = if vs.length = a.values.length then { a with values := vs } else a := by
  unfold setValues
  by_cases h : vs.length = a.values.length
  · simp only [h, ne_eq, not_true_eq_false, if_false, if_true]
    split <;> rfl
  · simp [h]

end

variable {R : Type} [Field R] [LinearOrder R] [IsStrictOrderedRing R] [FloorRing R]


theorem Reach.wf {min max dp : R} {k : Nat} {a : ArrParam R} (h : Reach min max dp k a) :
    ∃ s n, WF a s n ∧ DblParam.Reach min max dp a.sample ∧ a.values.length = k := by
  induction h with
  | new h =>
    obtain ⟨s, n, h1, h2, h3⟩ := new_eq_ok h
    exact ⟨s, n, h2, .new h1, by simp [h3]⟩
  | @setValues a vs h e ih =>
    obtain ⟨s, n, h1, h2, h3⟩ := ih
    rw [setValues_fst]
    split
    · next hl => exact ⟨s, n, ⟨h1.sample, by simp [hl, h1.cs]⟩, h2, by simp [hl, h3]⟩
    · exact ⟨s, n, h1, h2, h3⟩
  | @setFrom a chr h e ih =>
    obtain ⟨s, n, h1, h2, h3⟩ := ih
    by_cases hl : chr.length = s * a.values.length
    · obtain ⟨outs, rfl, hk, ho⟩ := exists_chunks s a.values.length chr hl
      rw [h1.setFrom outs hk ho]
      exact ⟨s, n, ⟨h1.sample, by simp [hk, h1.cs]⟩, h2, by simp [hk, h3]⟩
    · have : ∃ w, a.cs.check chr.length = .throw w := by
        refine ⟨"invalid_argument", ?_⟩
        unfold ConstSize.check
        rw [h1.cs]; simp [hl]
      obtain ⟨w, hw⟩ := this
      unfold setFromChromosome
      rw [hw]
      exact ⟨s, n, h1, h2, h3⟩

/-- **C11 (round trip).** If all values of the array lie in `[min, max)`, encoding it and decoding into any array built
with the same arguments succeeds and gives, position by position, the value rounded down by less than one
precision – and exactly the value when it was a grid point. -/
theorem C11_array_roundtrip (min max dp : R) (k : Nat) (a q : ArrParam R) (ha : Reach min max dp k a)
    (hq : Reach min max dp k q) (hv : ∀ v ∈ a.values, min ≤ v ∧ v < max) (chr : List Bool)
    (hl : a.cs.get = .ok chr.length) :
    ∃ out, a.setChromosome chr = .ok out ∧ out.length = chr.length ∧
      (q.setFromChromosome out).2 = .ok () ∧
      List.Forall₂ (fun v g => g ≤ v ∧ v < g + a.sample.prec ∧ min ≤ g ∧ g < max ∧
        ∀ m : Nat, v = min + m * a.sample.prec → g = v) a.values (q.setFromChromosome out).1.values := by
  obtain ⟨s, n, wa, ra, ka⟩ := ha.wf
  obtain ⟨s', n', wq, rq, kq⟩ := hq.wf
  obtain ⟨s2, n2, m2, w1, w2, e1, e2, e3, e4, e5⟩ := ra.same rq
  have hs1 : s2 = s := by have := w1.cs; rw [wa.sample.cs] at this; simpa using this.symm
  have hs2 : s2 = s' := by have := w2.cs; rw [wq.sample.cs] at this; simpa using this.symm
  subst hs1; subst hs2
  have hl' : chr.length = s2 * a.values.length := by
    rw [wa.cs] at hl; simp [ConstSize.get] at hl; exact hl.symm
  have hfits : ∀ v ∈ a.values, Fits a.sample v := fun v h =>
    fits_of_range wa.sample (by rw [e1]; exact (hv v h).1) (by rw [e3]; exact (hv v h).2.le)
  obtain ⟨outs, eo, hf⟩ := wa.setChromosome hfits chr hl'
  have hol : ∀ o ∈ outs, o.length = s2 := by
    intro o ho
    obtain ⟨i, hi, rfl⟩ := List.mem_iff_getElem.1 ho
    have := (List.forall₂_iff_get.1 hf).2 i (by rw [hf.length_eq]; exact hi) hi
    exact this.1
  have hlen : outs.length = q.values.length := by rw [← hf.length_eq, ka, kq]
  have hdec := wq.setFrom outs hlen hol
  refine ⟨outs.flatten, eo, ?_, by rw [hdec], ?_⟩
  · rw [List.length_flatten, hl', hf.length_eq]
    have : outs.map List.length = outs.map (fun _ => s2) := List.map_congr_left hol
    rw [this]; simp [mul_comm]
  · rw [hdec]
    simp only
    rw [List.forall₂_map_right_iff]
    refine List.Forall₂.imp ?_ (List.Forall₂.flip (List.forall₂_and_left (p := fun v => min ≤ v ∧ v < max) _ _ |>.2 ⟨hv, hf⟩ |>.flip))
    rintro v o ⟨⟨h1, h2⟩, h3, h4⟩
    have hr := wa.sample.index_range (v := v) (by rw [e1]; exact h1) (by rw [e3]; exact h2.le)
    have hlt := hr.2.2.1 (by rw [e3]; exact h2)
    rw [Int.emod_eq_of_lt hr.1 hlt] at h4
    have hc : ((bitsVal o : Nat) : R) = (DblParam.index a.sample v : R) := by
      have : ((bitsVal o : Int) : R) = (DblParam.index a.sample v : R) := by rw [h4]
      simpa using this
    rw [hc, ← e5, e2, ← e1]
    refine ⟨hr.2.2.2.1, hr.2.2.2.2, ?_, ?_, ?_⟩
    · have h0 : (0 : R) ≤ DblParam.index a.sample v := by exact_mod_cast hr.1
      have := mul_nonneg h0 wa.sample.prec_pos.le
      linarith
    · exact lt_of_le_of_lt hr.2.2.2.1 h2
    · intro m hm
      have := wa.sample.index_grid (m : Int)
      have hv' : v = ((m : Int) : R) * a.sample.prec + a.sample.min := by push_cast; rw [hm]; ring
      rw [← hv'] at this
      rw [this, hv']

/-- **C11 (layout).** The chromosome of the array is the concatenation, in order, of what single `DoubleParameter`s with the
same bounds write for the individual values. -/
theorem C11_array_layout (min max dp : R) (k : Nat) (a : ArrParam R) (ha : Reach min max dp k a)
    (p : DblParam R) (hp : DblParam.Reach min max dp p)
    (hv : ∀ v ∈ a.values, min ≤ v ∧ v ≤ max) (chr : List Bool) (hl : a.cs.get = .ok chr.length) :
    ∃ outs : List (List Bool), a.setChromosome chr = .ok outs.flatten ∧
      List.Forall₂ (fun v o => p.cs.get = .ok o.length ∧ ∃ p', p.setValue v = .ok p' ∧
        ∀ c : List Bool, c.length = o.length → p'.setChromosome c = .ok o) a.values outs := by
  obtain ⟨s, n, wa, ra, ka⟩ := ha.wf
  obtain ⟨s2, n2, m2, w1, w2, e1, e2, e3, e4, e5⟩ := ra.same hp
  have hs1 : s2 = s := by have := w1.cs; rw [wa.sample.cs] at this; simpa using this.symm
  subst hs1
  have hl' : chr.length = s2 * a.values.length := by
    rw [wa.cs] at hl; simp [ConstSize.get] at hl; exact hl.symm
  have hfits : ∀ v ∈ a.values, Fits a.sample v := fun v h =>
    fits_of_range wa.sample (by rw [e1]; exact (hv v h).1) (by rw [e3]; exact (hv v h).2)
  obtain ⟨outs, eo, hf⟩ := wa.setChromosome hfits chr hl'
  refine ⟨outs, eo, ?_⟩
  refine List.Forall₂.imp ?_ (List.forall₂_and_left (p := fun v => min ≤ v ∧ v ≤ max) _ _ |>.2 ⟨hv, hf⟩)
  rintro v o ⟨⟨h1, h2⟩, h3, h4⟩
  have hi : DblParam.index p v = DblParam.index a.sample v := by
    unfold DblParam.index; rw [e5, e1, e2]
  have hfit := fits_of_range (v := v) w2 (by rw [e2]; exact h1) (by rw [e4]; exact h2)
  obtain ⟨es, ws⟩ := w2.setValue v hfit
  refine ⟨by rw [w2.cs]; simp [ConstSize.get, h3], _, es, ?_⟩
  intro c hc
  obtain ⟨o', eo', hl2, hb⟩ := ws.setChromosome hfit c (by omega)
  rw [eo']
  congr 1
  refine bitsVal_inj (by omega) ?_
  have : (bitsVal o' : Int) = bitsVal o := by rw [hb, h4, hi]
  exact_mod_cast this

/-- Non-vacuity for C11: an array of three values in [0,1) with 2 bits each. -/
theorem exists_array : ∃ a : ArrParam ℚ, Reach 0 1 (3/10) 3 a ∧ a.cs.get = .ok 6 ∧ a.values = [0, 1/2, 3/5] := by
  obtain ⟨p, h, h2, h3⟩ := DblParam.exists_param
  have hn : ∃ sm, DblParam.new (0 : ℚ) 0 1 (3/10) = .ok sm := by
    exact (DblParam.C09_constructor (0 : ℚ) 0 1 (3/10)).2.2.2.2.1 (by norm_num) le_rfl (by norm_num) (by norm_num) (by norm_num)
  obtain ⟨sm, hsm⟩ := hn
  have rs : DblParam.Reach (0 : ℚ) 1 (3/10) sm := .new hsm
  obtain ⟨s, n, m, w1, w2, e1, e2, e3, e4, e5⟩ := rs.same (.new h)
  have hs : s = 2 := by rw [w2.cs] at h2; simpa [ConstSize.get] using h2
  subst hs
  have hnew : new (0 : ℚ) 1 (3/10) 3 = .ok ⟨⟨true, 6⟩, sm, [0, 0, 0]⟩ := by
    unfold new
    rw [hsm, Res.ok_bind, w1.cs]
    rfl
  have hset : ((⟨⟨true, 6⟩, sm, [0, 0, 0]⟩ : ArrParam ℚ).setValues [0, 1/2, 3/5]) =
      (⟨⟨true, 6⟩, sm, [0, 1/2, 3/5]⟩, .ok ()) := by
    have hc : (⟨⟨true, 6⟩, sm, [0, 1/2, 3/5]⟩ : ArrParam ℚ).checkConstraints = .ok true := by
      unfold checkConstraints
      rw [checkLoop_true w1, e1, e3, e5, h3]
      intro v hv
      simp at hv
      rcases hv with rfl | rfl | rfl <;> norm_num
    unfold setValues
    simp only [List.length_cons, List.length_nil, ne_eq, not_true_eq_false, if_false, hc]
  have r := Reach.setValues (vs := [0, 1/2, 3/5]) (Reach.new hnew) (by rw [hset]; simp)
  rw [hset] at r
  exact ⟨_, r, rfl, rfl⟩

example : ∃ a : ArrParam ℚ, Reach 0 1 (3/10) 3 a ∧ (∀ v ∈ a.values, 0 ≤ v ∧ v < 1) ∧
    a.cs.get = .ok [true, true, true, true, true, true].length := by
  obtain ⟨a, h, h2, h3⟩ := exists_array
  refine ⟨a, h, ?_, h2⟩
  rw [h3]; intro v hv; simp at hv
  rcases hv with rfl | rfl | rfl <;> norm_num

/-- **C12 (wrong count).** `SetValues` with a different number of values throws and changes nothing. -/
theorem C12_wrong_count (a : ArrParam R) (vs : List R) (h : vs.length ≠ a.values.length) :
    (a.setValues vs).2.threw ∧ (a.setValues vs).1 = a := by
  unfold setValues; rw [if_pos h]; exact ⟨trivial, rfl⟩

/-- **C12 (acceptance).** With the right number of values, `SetValues` returns normally exactly when every value lies in
the open interval `(min - precision, max + precision)` – not `[min, max]`; the new values are stored even
when it throws; and when every value is within `int` range of the grid it throws otherwise. -/
theorem C12_acceptance (min max dp : R) (k : Nat) (a : ArrParam R) (ha : Reach min max dp k a) (vs : List R)
    (hl : vs.length = k) :
    (a.setValues vs).1.values = vs ∧
    ((a.setValues vs).2 = .ok () ↔ ∀ v ∈ vs, min - a.sample.prec < v ∧ v < max + a.sample.prec) ∧
    ((∀ v ∈ vs, |v - min| < 2147483648 * a.sample.prec) →
      (¬ ∀ v ∈ vs, min - a.sample.prec < v ∧ v < max + a.sample.prec) → (a.setValues vs).2.threw) := by
  obtain ⟨s, n, wa, ra, ka⟩ := ha.wf
  obtain ⟨s2, n2, w1, e1, e3, _⟩ := ra.wf
  have hl' : vs.length = a.values.length := by omega
  have hct := checkLoop_true wa.sample vs
  rw [e1, e3] at hct
  refine ⟨by rw [setValues_fst, if_pos hl'], ?_, ?_⟩
  · rw [← hct]
    unfold setValues
    rw [if_neg (by simpa using hl')]
    simp only [checkConstraints]
    cases hc : checkLoop a.sample vs with
    | ok b => cases b <;> simp
    | throw w => simp
    | ub => simp
  · intro hb hn
    have hfit : ∀ v ∈ vs, Fits a.sample v := by
      intro v hv
      have hp := wa.sample.prec_pos
      have h1 := abs_lt.1 (hb v hv)
      rw [← e1] at h1
      unfold Fits DblParam.index truncZ
      have hx1 : (-2147483648 : R) < (v - a.sample.min) / a.sample.prec := by
        rw [lt_div_iff₀ hp]; linarith
      have hx2 : (v - a.sample.min) / a.sample.prec < 2147483648 := by
        rw [div_lt_iff₀ hp]; linarith
      split
      · next h0 =>
        have := Int.floor_nonneg.2 h0
        have h3 : ⌊(v - a.sample.min) / a.sample.prec⌋ < 2147483648 := Int.floor_lt.2 (by push_cast; exact hx2)
        omega
      · next h0 =>
        have h3 : (-2147483648 : Int) < ⌈(v - a.sample.min) / a.sample.prec⌉ := Int.lt_ceil.2 (by push_cast; exact hx1)
        have h4 : ⌈(v - a.sample.min) / a.sample.prec⌉ ≤ 0 := Int.ceil_le.2 (by push_cast; exact (not_le.1 h0).le)
        omega
    unfold setValues
    rw [if_neg (by simpa using hl')]
    simp only [checkConstraints]
    cases hc : checkLoop a.sample vs with
    | ok b =>
      cases b
      · trivial
      · exact absurd (hct.1 hc) hn
    | throw w => trivial
    | ub => exact absurd hc (checkLoop_fits wa.sample vs hfit)

/-- The literal claim "values outside [min,max] are rejected" is false: with precision 1/4 the array accepts 1.2 > 1. -/
theorem C12_outside_accepted : ∃ (a : ArrParam ℚ), Reach 0 1 (3/10) 3 a ∧
    (a.setValues [0, 1/2, 6/5]).2 = .ok () ∧ (1 : ℚ) < 6/5 := by
  obtain ⟨a, h, h2, h3⟩ := exists_array
  refine ⟨a, h, ?_, by norm_num⟩
  have hprec : a.sample.prec = 1/4 := by
    obtain ⟨p, hp, _, hpr⟩ := DblParam.exists_param
    obtain ⟨s, n, wa, ra, ka⟩ := h.wf
    obtain ⟨_, _, _, _, _, _, _, _, _, e⟩ := ra.same (.new hp)
    rw [e, hpr]
  rw [(C12_acceptance 0 1 (3/10) 3 a h [0, 1/2, 6/5] rfl).2.1, hprec]
  intro v hv
  simp at hv
  rcases hv with rfl | rfl | rfl <;> norm_num

/-- **C08 (array).** A range of the wrong length is rejected by both conversions and the array is unchanged. -/
theorem C08_wrong_length_arr (a : ArrParam R) (chr : List Bool) (h : a.cs.get ≠ .ok chr.length) :
    (a.setChromosome chr).threw ∧ (a.setFromChromosome chr).2.threw ∧ (a.setFromChromosome chr).1 = a := by
  have : ∃ w, a.cs.check chr.length = .throw w := by
    unfold ConstSize.get at h
    unfold ConstSize.check
    split at h
    · next hs =>
      rw [if_pos hs, if_pos (by intro e; exact h (by rw [e]))]
      exact ⟨_, rfl⟩
    · next hs => rw [if_neg hs]; exact ⟨_, rfl⟩
  obtain ⟨w, hw⟩ := this
  unfold setChromosome setFromChromosome
  rw [hw]
  exact ⟨trivial, trivial, rfl⟩

end K52.ArrParam
