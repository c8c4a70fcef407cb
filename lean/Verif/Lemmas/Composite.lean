import Verif.Props.Composite

/-! # Decoding keeps parameter trees well-formed, and never fails on ranges of the right length unless int overflow -/

set_option linter.unusedSectionVars false

namespace K52.Param
variable {R : Type} [Field R] [LinearOrder R] [IsStrictOrderedRing R] [FloorRing R]

theorem int_setFrom_meta (p : IntParam) (chr : List Bool) :
    ∃ v, (p.setFromChromosome chr).1 = { p with value := v } := by
  unfold IntParam.setFromChromosome
  repeat' split
  all_goals first | exact ⟨_, rfl⟩ | exact ⟨p.value, rfl⟩

mutual
/-- Decoding a chromosome (successfully or not) leaves a well-formed tree well-formed, with the same size. -/
theorem wf_setFrom : ∀ (p : Param R) (s : Nat) (chr : List Bool), WFP p s → WFP (p.setFromChromosome chr).1 s
  | .int p, s, chr, h => by
    obtain ⟨v, hv⟩ := int_setFrom_meta p chr
    simp only [setFromChromosome, hv]
    simp only [WFP] at *
    exact h
  | .dbl p, s, chr, h => by
    simp only [setFromChromosome]
    simp only [WFP] at *
    obtain ⟨n, w⟩ := h
    by_cases hl : chr.length = s
    · obtain ⟨e, w'⟩ := w.setFrom chr hl
      rw [e]; exact ⟨_, w'⟩
    · obtain ⟨x, e⟩ := DblParam.setFrom_wrong w chr hl
      rw [e]; exact ⟨n, w⟩
  | .arr a, s, chr, h => by
    simp only [setFromChromosome]
    simp only [WFP] at *
    obtain ⟨s1, n, w, rfl⟩ := h
    by_cases hl : chr.length = s1 * a.values.length
    · obtain ⟨outs, rfl, ho, ho2⟩ := ArrParam.exists_chunks s1 a.values.length chr hl
      rw [w.setFrom outs ho ho2]
      refine ⟨s1, n, ⟨w.1, ?_⟩, ?_⟩
      · simpa [ho] using w.2
      · simp [ho]
    · have : (a.setFromChromosome chr).1 = a := by
        unfold ArrParam.setFromChromosome
        simp [w.cs, ConstSize.check, hl]
      rw [this]; exact ⟨s1, n, w, rfl⟩
  | .comp cs init ms, s, chr, h => by
    simp only [setFromChromosome]
    have h' := h
    simp only [WFP] at h
    obtain ⟨rfl, rfl, hm⟩ := h
    simp only [if_true]
    split
    · simp only [WFP]; exact ⟨trivial, trivial, wf_decAll ms s chr hm⟩
    · exact h'
    · exact h'
theorem wf_decAll : ∀ (ms : List (Param R)) (s : Nat) (chr : List Bool), WFL ms s → WFL (decAll ms chr).1 s
  | [], s, chr, h => by simpa [decAll] using h
  | m :: ms, s, chr, h => by
    have h' := h
    simp only [WFL] at h
    obtain ⟨s1, s2, rfl, h1, h2⟩ := h
    unfold decAll
    split
    · split
      · next cur rest _ =>
        have hm := wf_setFrom m s1 cur h1
        split
        · next m' e =>
          rw [e] at hm
          simp only [WFL]
          exact ⟨s1, s2, rfl, hm, wf_decAll ms s2 rest h2⟩
        · next m' w e =>
          rw [e] at hm
          simp only [WFL]
          exact ⟨s1, s2, rfl, hm, h2⟩
        · next m' e =>
          rw [e] at hm
          simp only [WFL]
          exact ⟨s1, s2, rfl, hm, h2⟩
      · exact h'
      · exact h'
    · exact h'
    · exact h'
end

end K52.Param
