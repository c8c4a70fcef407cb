import Verif.Lemmas.Family
import Verif.Lemmas.GAProgress

/-! # The library's parameter classes always decode (for C94) -/

set_option linter.unusedSectionVars false

namespace K52.Param
variable {R : Type} [Field R] [LinearOrder R] [IsStrictOrderedRing R] [FloorRing R]

mutual
/-- In every integer leaf all `2^s` decoded numbers fit an `int`. -/
def IntsFit : Param R → Prop
  | .int p => p.min + 2 ^ p.cs.size ≤ 2147483648
  | .dbl _ => True
  | .arr _ => True
  | .comp _ _ ms => IntsFits ms
def IntsFits : List (Param R) → Prop
  | [] => True
  | m :: ms => IntsFit m ∧ IntsFits ms
end

mutual
/-- In every integer leaf the `2^s` decoded numbers do not go beyond `max`. -/
def NoGap : Param R → Prop
  | .int p => p.min + 2 ^ p.cs.size ≤ p.max + 1
  | .dbl _ => True
  | .arr _ => True
  | .comp _ _ ms => NoGaps ms
def NoGaps : List (Param R) → Prop
  | [] => True
  | m :: ms => NoGap m ∧ NoGaps ms
end

mutual
/-- Every leaf holds a value in its closed range. -/
def Within : Param R → Prop
  | .int p => p.min ≤ p.value ∧ p.value ≤ p.max
  | .dbl p => ∃ v, p.getValue = .ok v ∧ p.min ≤ v ∧ v ≤ p.max
  | .arr a => ∀ v ∈ a.values, a.sample.min ≤ v ∧ v ≤ a.sample.max
  | .comp _ _ ms => Withins ms
def Withins : List (Param R) → Prop
  | [] => True
  | m :: ms => Within m ∧ Withins ms
end

mutual
theorem intsFit_erase : ∀ p : Param R, IntsFit (erase p) ↔ IntsFit p
  | .int p => by simp [erase, IntsFit]
  | .dbl p => by simp [erase, IntsFit]
  | .arr p => by simp [erase, IntsFit]
  | .comp cs i ms => by simp only [erase, IntsFit]; exact intsFits_erase ms
theorem intsFits_erase : ∀ ms : List (Param R), IntsFits (eraseL ms) ↔ IntsFits ms
  | [] => by simp [eraseL, IntsFits]
  | m :: ms => by simp only [eraseL, IntsFits]; rw [intsFit_erase m, intsFits_erase ms]
end

mutual
theorem noGap_erase : ∀ p : Param R, NoGap (erase p) ↔ NoGap p
  | .int p => by simp [erase, NoGap]
  | .dbl p => by simp [erase, NoGap]
  | .arr p => by simp [erase, NoGap]
  | .comp cs i ms => by simp only [erase, NoGap]; exact noGaps_erase ms
theorem noGaps_erase : ∀ ms : List (Param R), NoGaps (eraseL ms) ↔ NoGaps ms
  | [] => by simp [eraseL, NoGaps]
  | m :: ms => by simp only [eraseL, NoGaps]; rw [noGap_erase m, noGaps_erase ms]
end

mutual
theorem dec_total : ∀ (p : Param R) (s : Nat) (chr : List Bool), WFP p s → IntsFit p → chr.length = s →
    ∃ q, p.setFromChromosome chr = (q, .ok ()) ∧ ∃ b, q.checkConstraints = .ok b ∧ (NoGap p → b = true)
  | .int p, s, chr, h, hf, hl => by
    simp only [WFP] at h
    obtain ⟨h1, h2, h3⟩ := h
    have hb : (bitsVal chr : Int) < 2 ^ s := by rw [← hl]; exact_mod_cast bitsVal_lt chr
    have hs := (IntParam.count_eq_ok h2).2.2.1
    simp only [IntsFit, h1] at hf
    have h3' := h3.1
    have e := IntParam.setFrom_spec h1 hs chr hl ⟨by omega, by omega⟩
    refine ⟨.int { p with value := bitsVal chr + p.min }, by simp only [setFromChromosome, e], _, rfl, fun hg => ?_⟩
    simp only [NoGap, h1] at hg
    simp only [IntParam.checkConstraints, Bool.and_eq_true, decide_eq_true_eq]
    omega
  | .dbl p, s, chr, h, _, hl => by
    simp only [WFP] at h
    obtain ⟨n, w⟩ := h
    obtain ⟨e, w'⟩ := w.setFrom chr hl
    refine ⟨.dbl { p with base := some ⟨⟨true, s⟩, bitsVal chr, 0, 2 ^ s⟩ }, by simp only [setFromChromosome, e], _, w'.checkConstraints, fun _ => ?_⟩
    have hb : (bitsVal chr : Int) < 2 ^ s := by rw [← hl]; exact_mod_cast bitsVal_lt chr
    simp only [decide_eq_true_eq]
    omega
  | .arr a, s, chr, h, _, hl => by
    simp only [WFP] at h
    obtain ⟨s1, n, w, rfl⟩ := h
    obtain ⟨outs, rfl, ho, ho2⟩ := ArrParam.exists_chunks s1 a.values.length chr hl
    have e := w.setFrom outs ho ho2
    refine ⟨.arr { a with values := outs.map (fun o => (bitsVal o : R) * a.sample.prec + a.sample.min) },
      by simp only [setFromChromosome, e], true, ?_, fun _ => rfl⟩
    simp only [checkConstraints, ArrParam.checkConstraints]
    rw [ArrParam.checkLoop_true w.sample]
    intro v hv
    simp only [List.mem_map] at hv
    obtain ⟨o, hom, rfl⟩ := hv
    have hp := w.sample.prec_pos
    rw [w.sample.max_eq]
    have hb : (bitsVal o : R) < 2 ^ s1 := by
      have := bitsVal_lt o
      rw [ho2 o hom] at this
      exact_mod_cast this
    have h0 : (0 : R) ≤ bitsVal o := Nat.cast_nonneg _
    constructor <;> nlinarith
  | .comp cs init ms, s, chr, h, hf, hl => by
    simp only [WFP] at h
    obtain ⟨rfl, rfl, hm⟩ := h
    simp only [IntsFit] at hf
    obtain ⟨qs, e, b, hb, hg⟩ := decAll_total ms s chr hm hf hl
    refine ⟨.comp ⟨true, s⟩ true qs, ?_, b, ?_, hg⟩
    · simp only [setFromChromosome, if_true]
      rw [IntParam.check_ok.2 (by simp [hl])]
      simp only [e]
    · simp only [checkConstraints, if_true, hb]
theorem decAll_total : ∀ (ms : List (Param R)) (s : Nat) (chr : List Bool), WFL ms s → IntsFits ms → chr.length = s →
    ∃ qs, decAll ms chr = (qs, .ok ()) ∧ ∃ b, checkAll qs = .ok b ∧ (NoGaps ms → b = true)
  | [], s, chr, h, _, _ => ⟨[], by simp [decAll], true, by simp [checkAll], fun _ => rfl⟩
  | m :: ms, s, chr, h, hf, hl => by
    simp only [WFL] at h
    obtain ⟨s1, s2, rfl, h1, h2⟩ := h
    simp only [IntsFits] at hf
    obtain ⟨q, e, b, hb, hg⟩ := dec_total m s1 (chr.take s1) h1 hf.1 (by simp; omega)
    obtain ⟨qs, e', b', hb', hg'⟩ := decAll_total ms s2 (chr.drop s1) h2 hf.2 (by simp; omega)
    refine ⟨q :: qs, ?_, b && b', ?_, fun hn => ?_⟩
    · unfold decAll
      simp only [WFP.size h1, ArrParam.slice_ok (show s1 ≤ chr.length by omega), e, e']
    · simp only [checkAll, hb, Res.ok_bind]
      cases b <;> simp [hb']
    · simp only [NoGaps] at hn
      simp [hg hn.1, hg' hn.2]
end

mutual
theorem enc_total : ∀ (p : Param R) (s : Nat) (chr : List Bool), WFP p s → Within p → chr.length = s →
    ∃ out, p.setChromosome chr = .ok out
  | .int p, s, chr, h, hw, hl => by
    simp only [WFP] at h
    simp only [Within] at hw
    obtain ⟨h1, h2, h3⟩ := h
    obtain ⟨_, c2, c3, _⟩ := IntParam.count_eq_ok h2
    norm_num at c2
    obtain ⟨out, e, _⟩ := IntParam.setChromosome_spec h1 c3 (by omega) chr hl
    exact ⟨out, by simp [setChromosome, e]⟩
  | .dbl p, s, chr, h, hw, hl => by
    simp only [WFP] at h
    simp only [Within] at hw
    obtain ⟨n, w⟩ := h
    obtain ⟨v, hv, h1, h2⟩ := hw
    rw [w.getValue] at hv
    simp only [Res.ok.injEq] at hv
    subst hv
    have hi := w.index_range h1 h2
    rw [w.index_grid] at hi
    have := DblParam.pow_le_30 w.small
    obtain ⟨out, e, _⟩ := w.setChromosome (by omega) chr hl
    exact ⟨out, by simp [setChromosome, e]⟩
  | .arr a, s, chr, h, hw, hl => by
    simp only [WFP] at h
    simp only [Within] at hw
    obtain ⟨s1, n, w, rfl⟩ := h
    obtain ⟨outs, e, _⟩ := w.setChromosome (fun v hv => ArrParam.fits_of_range w.sample (hw v hv).1 (hw v hv).2) chr hl
    exact ⟨_, by simp only [setChromosome]; exact e⟩
  | .comp cs init ms, s, chr, h, hw, hl => by
    simp only [WFP] at h
    simp only [Within] at hw
    obtain ⟨rfl, rfl, hm⟩ := h
    obtain ⟨out, e⟩ := encAll_total ms s chr hm hw hl
    refine ⟨out, ?_⟩
    simp only [setChromosome, if_true]
    rw [IntParam.check_ok.2 (by simp [hl])]
    exact e
theorem encAll_total : ∀ (ms : List (Param R)) (s : Nat) (chr : List Bool), WFL ms s → Withins ms → chr.length = s →
    ∃ out, encAll ms chr = .ok out
  | [], s, chr, h, _, _ => ⟨chr, by simp [encAll]⟩
  | m :: ms, s, chr, h, hw, hl => by
    simp only [WFL] at h
    obtain ⟨s1, s2, rfl, h1, h2⟩ := h
    simp only [Withins] at hw
    obtain ⟨o, e⟩ := enc_total m s1 (chr.take s1) h1 hw.1 (by simp; omega)
    obtain ⟨os, e'⟩ := encAll_total ms s2 (chr.drop s1) h2 hw.2 (by simp; omega)
    refine ⟨o ++ os, ?_⟩
    unfold encAll
    simp only [WFP.size h1, ArrParam.slice_ok (show s1 ≤ chr.length by omega), Res.ok_bind, e, e', Res.pure_eq]
end

/-- Objects that differ from `p0` only in their values decode every chromosome of their length; if no integer range has a gap, the decoded
values always satisfy the constraints. -/
theorem total (p0 : Param R) (s : Nat) (hpos : 0 < s) (hs : s ≤ 2147483647) (hf : IntsFit p0) :
    GA.Total (¬ NoGap p0) (Fam p0 s) s where
  pos := hpos
  small := hs
  dec p chr hp hl := by
    obtain ⟨q, e, b, hb, hg⟩ := dec_total p s chr hp.1 ((intsFit_erase p).1 (by rw [hp.2]; exact (intsFit_erase p0).2 hf)) hl
    refine ⟨q, e, b, hb, ?_⟩
    by_cases hn : NoGap p0
    · exact .inr (hg ((noGap_erase p).1 (by rw [hp.2]; exact (noGap_erase p0).2 hn)))
    · exact .inl hn

theorem encodes {p : Param R} {s : Nat} (h : WFP p s) (hw : Within p) : GA.Encodes s p :=
  enc_total p s _ h hw (by simp)

end K52.Param
