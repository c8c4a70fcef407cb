import Verif.Props.CompObj

/-! # Concrete histories of one composite object: the hypotheses of C127 are met -/

set_option linter.unusedSectionVars false

namespace K52.CompObj.Examples
open K52.Param

/-- An integer in [0, 2] (one bit) and one in [0, 4] (two bits). -/
def one : Param ℚ := .int ⟨⟨true, 1⟩, 0, 0, 2⟩
def two : Param ℚ := .int ⟨⟨true, 2⟩, 3, 0, 4⟩

/-- A composite nobody has initialised: it cannot be cloned. -/
def raw : Param ℚ := .comp ConstSize.new false []

theorem wf_one : WFP one 1 := by
  have := DblParam.count_pow 1 (by norm_num)
  simp only [one, WFP]; exact ⟨trivial, by simpa using this, by norm_num [IsInt]⟩

theorem wf_two : WFP two 2 := by
  have := DblParam.count_pow 2 (by norm_num)
  simp only [two, WFP]; exact ⟨trivial, by simpa using this, by norm_num [IsInt]⟩

theorem wf_ones : WFL [one] 1 := by simp only [WFL]; exact ⟨1, 0, rfl, wf_one, rfl⟩
theorem wf_both : WFL [one, two] 3 := by simp only [WFL]; exact ⟨1, 2, rfl, wf_one, 2, 0, rfl, wf_two, rfl⟩
theorem wf_twos : WFL [two] 2 := by simp only [WFL]; exact ⟨2, 0, rfl, wf_two, rfl⟩

theorem raw_throws : raw.clone = .throw "logic_error" := by simp [raw, Param.clone]

/-- A first initialisation that throws after one copy, a query that throws, and an initialisation with one and two. -/
def before : List (Op ℚ) := [.init [some one, some raw, some two], .number, .init [some one, some two]]

theorem after_before : run fresh before =
    (⟨⟨true, 3⟩, true, [some one, some two]⟩, [.throw "logic_error", .throw "logic_error", .ok .unit]) := by
  have e := cloneLoop_stop [one] wf_ones raw _ raw_throws [some two]
  have e1 : step (fresh : Obj ℚ) (.init [some one, some raw, some two]) =
      (⟨ConstSize.new, false, [some one, none, none]⟩, .throw "logic_error") := by
    simp only [step, initVec]
    simp only [List.map_cons, List.map_nil, List.cons_append, List.nil_append] at e
    rw [e]; rfl
  have e3 : step (⟨ConstSize.new, false, [some one, none, none]⟩ : Obj ℚ) (.init [some one, some two]) =
      (⟨⟨true, 3⟩, true, [some one, some two]⟩, .ok .unit) := by
    have h := cloneLoop_wf _ wf_both
    have h2 := countTotal_some [one, two]
    rw [wf_both.total] at h2
    simp only [List.map_cons, List.map_nil] at h h2
    simp [step, initVec, h, h2, ConstSize.set, ConstSize.new, wrap]
  have e2 : step (⟨ConstSize.new, false, [some one, none, none]⟩ : Obj ℚ) .number =
      (⟨ConstSize.new, false, [some one, none, none]⟩, .throw "logic_error") := rfl
  simp only [before, run, e1, e2, e3]

/-- The history meets the conditions of `C127_sound` and `C127_defined`, and so do a decoding, an encoding, a check and a clone after it. -/
theorem tame : Every (fun o op => Tame o op ∧ Harmless o op) (fresh : Obj ℚ)
    (before ++ [.setFrom [true, false, true], .setChr [false, false, false], .check, .clone, .get 1, .edit 1 two]) := by
  have u1 : Usable one := .inl ⟨1, wf_one⟩
  have u2 : Usable two := .inl ⟨2, wf_two⟩
  have u3 : Usable raw := .inr (.inl ⟨_, _, rfl⟩)
  have hr := after_before
  simp only [before, run] at hr
  have h3 : (step (step (step (fresh : Obj ℚ) (.init [some one, some raw, some two])).1 .number).1 (.init [some one, some two])).1 =
      ⟨⟨true, 3⟩, true, [some one, some two]⟩ := congrArg Prod.fst hr
  have h2 : (step (step (fresh : Obj ℚ) (.init [some one, some raw, some two])).1 .number).1.init = false := by
    have e := cloneLoop_stop [one] wf_ones raw _ raw_throws [some two]
    simp only [List.map_cons, List.map_nil, List.cons_append, List.nil_append] at e
    simp [step, initVec, e, fresh]
  -- decoding 1 and 01: the members become 1 and 2
  have d : (step (⟨⟨true, 3⟩, true, [some one, some two]⟩ : Obj ℚ) (.setFrom [true, false, true])).1 =
      ⟨⟨true, 3⟩, true, [some (.int ⟨⟨true, 1⟩, 1, 0, 2⟩), some (.int ⟨⟨true, 2⟩, 2, 0, 4⟩)]⟩ := by rfl
  have hms : ∀ ms : List (Param ℚ), [some (Param.int ⟨⟨true, 1⟩, 1, 0, 2⟩), some (Param.int ⟨⟨true, 2⟩, 2, 0, 4⟩)] = ms.map some →
      Withins ms := by
    intro ms h
    have : ms = [.int ⟨⟨true, 1⟩, 1, 0, 2⟩, .int ⟨⟨true, 2⟩, 2, 0, 4⟩] := by
      have := congrArg (List.filterMap id) h
      simpa using this.symm
    subst this
    simp [Withins, Within]
  simp only [before, List.cons_append, List.nil_append, Every, h3]
  refine ⟨⟨⟨rfl, ?_⟩, trivial⟩, ⟨trivial, trivial⟩, ⟨⟨h2, ?_⟩, trivial⟩, ⟨trivial, ?_⟩, ⟨trivial, ?_⟩, ⟨trivial, ?_⟩, ⟨trivial, trivial⟩,
    ⟨trivial, by simp [Harmless]⟩, ⟨?_, by simp [Harmless]⟩, trivial⟩
  · simp only [List.mem_cons, List.not_mem_nil, or_false]
    rintro p (rfl | rfl | rfl)
    exacts [⟨_, rfl, u1⟩, ⟨_, rfl, u3⟩, ⟨_, rfl, u2⟩]
  · simp only [List.mem_cons, List.not_mem_nil, or_false]
    rintro p (rfl | rfl)
    exacts [⟨_, rfl, u1⟩, ⟨_, rfl, u2⟩]
  · intro ms h
    have : ms = [one, two] := by
      have := congrArg (List.filterMap id) h
      simpa using this.symm
    subst this
    simp [IntsFits, IntsFit, one, two]
  · rw [d]; exact hms
  · rw [d]; exact hms
  · rw [d]
    intro m hm
    have : m = .int ⟨⟨true, 2⟩, 2, 0, 4⟩ := by
      have : some (some (Param.int ⟨⟨true, 2⟩, 2, 0, 4⟩)) = some (some m) := hm
      simpa using this.symm
    subst this
    refine ⟨2, ?_, wf_two⟩
    have := DblParam.count_pow 2 (by norm_num)
    simp only [WFP]; exact ⟨trivial, by simpa using this, by norm_num [IsInt]⟩

/-- The hypotheses of the theorems about a second initialisation: shorter and equal. -/
theorem shorter : (run (fresh : Obj ℚ) before).1.init = true ∧ WFL [two] 2 ∧ (run (fresh : Obj ℚ) before).1.cs.get = .ok 3 ∧
    2 ≤ 3 ∧ Withins [two] ∧ IntsFits [two] ∧ raw.clone = .throw "logic_error" := by
  rw [after_before]
  exact ⟨rfl, wf_twos, rfl, by norm_num, by simp [Withins, Within, two], by simp [IntsFits, IntsFit, two], raw_throws⟩

/-- And longer: five bits where three are accepted. -/
theorem longer : WFL [one, two, two] 5 ∧ Withins [one, two, two] ∧ IntsFits [one, two, two] ∧ 3 < 5 :=
  ⟨by simp only [WFL]; exact ⟨1, 4, rfl, wf_one, 2, 2, rfl, wf_two, 2, 0, rfl, wf_two, rfl⟩, by simp [Withins, Within, one, two],
    by simp [IntsFits, IntsFit, one, two], by norm_num⟩

/-- A first member that violates its constraints hides the null pointer behind it from `CheckConstraints`. -/
theorem check_stops : checkConstraints (⟨⟨true, 3⟩, true, [some (.int ⟨⟨true, 1⟩, 7, 0, 2⟩), none]⟩ : Obj ℚ) = .ok false := by decide +kernel

end K52.CompObj.Examples
