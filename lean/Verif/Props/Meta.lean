import Verif.Props.Composite
import Verif.Model.GA

/-!
# `HasSameMetaParameters` and the validation of initial parameters (C61)

Spec: `SameKind` (same leaf class), `SameMeta` (bounds, precision, number of values), `SameValues` (what the getters return).
-/

set_option linter.unusedSectionVars false

namespace K52.Param
variable {R : Type} [Field R] [LinearOrder R] [IsStrictOrderedRing R] [FloorRing R]

/-- Both are objects of the same one of the three leaf classes. -/
def SameKind : Param R → Param R → Prop
  | .int _, .int _ => True
  | .dbl _, .dbl _ => True
  | .arr _, .arr _ => True
  | _, _ => False

/-- The settings a user gives to the constructors agree (for doubles: the bounds and the resulting precision). -/
def SameMeta : Param R → Param R → Prop
  | .int p, .int q => p.min = q.min ∧ p.max = q.max
  | .dbl p, .dbl q => p.min = q.min ∧ p.max = q.max ∧ p.prec = q.prec
  | .arr p, .arr q => p.sample.min = q.sample.min ∧ p.sample.max = q.sample.max ∧ p.sample.prec = q.sample.prec ∧
      p.values.length = q.values.length
  | _, _ => False

/-- The getters return the same. -/
def SameValues : Param R → Param R → Prop
  | .int p, .int q => p.value = q.value
  | .dbl p, .dbl q => p.getValue = q.getValue
  | .arr p, .arr q => p.values = q.values
  | _, _ => False

theorem dbl_meta {p q : DblParam R} {s t : Nat} {n m : Int} (hp : DblParam.WF p s n) (hq : DblParam.WF q t m) :
    (p.hasSameMeta q = .ok true ↔ p.min = q.min ∧ p.max = q.max ∧ p.prec = q.prec) ∧
    (p.hasSameMeta q = .ok false ↔ ¬ (p.min = q.min ∧ p.max = q.max ∧ p.prec = q.prec)) ∧
    (p.min = q.min ∧ p.max = q.max ∧ p.prec = q.prec → s = t) := by
  have key : p.min = q.min ∧ p.max = q.max ∧ p.prec = q.prec → s = t := by
    rintro ⟨h1, h2, h3⟩
    rw [hp.prec, hq.prec, h1, h2] at h3
    have hpos : q.max - q.min ≠ 0 := (sub_pos.2 hq.bounds).ne'
    rw [div_eq_div_iff (by positivity) (by positivity)] at h3
    have := mul_left_cancel₀ hpos h3
    have h4 : (2 : R) ^ t = 2 ^ s := this
    exact (pow_right_injective₀ (by norm_num : (0 : R) < 2) (by norm_num)) h4.symm
  refine ⟨?_, ?_, key⟩
  all_goals
    unfold DblParam.hasSameMeta
    split
    · next h =>
      have h' : p.min = q.min ∧ p.max = q.max ∧ p.prec = q.prec := ⟨h.2.1, h.1, h.2.2⟩
      have e := key h'
      subst e
      simp only [hp.base, hq.base, IntParam.hasSameMeta]
      simp [h']
    · next h =>
      have h' : ¬ (p.min = q.min ∧ p.max = q.max ∧ p.prec = q.prec) := fun x => h ⟨x.2.1, x.1, x.2.2⟩
      simp [h']

/-- **C61 (exactness).** Of two constructed objects, `HasSameMetaParameters` answers `true` exactly when they are of the same leaf class
with the same settings, `false` exactly when they are of the same leaf class with different settings, and throws otherwise. -/
theorem C61_same_meta_iff (p q : Param R) (s t : Nat) (hp : WFP p s) (hq : WFP q t) :
    (p.hasSameMeta q = .ok true ↔ SameMeta p q) ∧
    (p.hasSameMeta q = .ok false ↔ SameKind p q ∧ ¬ SameMeta p q) ∧
    ((p.hasSameMeta q).threw ↔ ¬ SameKind p q) := by
  cases p with
  | int p =>
    cases q with
    | int q =>
      simp only [hasSameMeta, SameMeta, SameKind, IntParam.hasSameMeta, Res.ok.injEq, Bool.and_eq_true, decide_eq_true_eq,
        Bool.and_eq_false_iff, decide_eq_false_iff_not, Res.not_threw_ok, not_true_eq_false, iff_self, and_true, true_and]
      constructor
      · exact and_comm
      · tauto
    | dbl q => simp [hasSameMeta, SameMeta, SameKind]
    | arr q => simp [hasSameMeta, SameMeta, SameKind]
    | comp _ _ _ => simp [hasSameMeta, SameMeta, SameKind]
  | dbl p =>
    cases q with
    | dbl q =>
      obtain ⟨n, wp⟩ := hp
      obtain ⟨m, wq⟩ := hq
      obtain ⟨h1, h2, _⟩ := dbl_meta wp wq
      refine ⟨h1, by simpa [SameMeta, SameKind, hasSameMeta] using h2, ?_⟩
      simp only [SameKind, not_true_eq_false, iff_false, hasSameMeta]
      by_cases h : p.min = q.min ∧ p.max = q.max ∧ p.prec = q.prec
      · rw [h1.2 h]; simp
      · rw [h2.2 h]; simp
    | int q => simp [hasSameMeta, SameMeta, SameKind]
    | arr q => simp [hasSameMeta, SameMeta, SameKind]
    | comp _ _ _ => simp [hasSameMeta, SameMeta, SameKind]
  | arr p =>
    cases q with
    | arr q =>
      obtain ⟨s1, n, wp, _⟩ := hp
      obtain ⟨t1, m, wq, _⟩ := hq
      obtain ⟨h1, h2, _⟩ := dbl_meta wp.sample wq.sample
      simp only [SameKind, not_true_eq_false, iff_false, hasSameMeta, ArrParam.hasSameMeta, SameMeta, true_and]
      by_cases hl : p.values.length = q.values.length
      · simp only [if_pos hl, hl, and_true]
        refine ⟨h1, h2, ?_⟩
        by_cases h : p.sample.min = q.sample.min ∧ p.sample.max = q.sample.max ∧ p.sample.prec = q.sample.prec
        · rw [h1.2 h]; simp
        · rw [h2.2 h]; simp
      · simp [hl]
    | int q => simp [hasSameMeta, SameMeta, SameKind]
    | dbl q => simp [hasSameMeta, SameMeta, SameKind]
    | comp _ _ _ => simp [hasSameMeta, SameMeta, SameKind]
  | comp _ _ _ => cases q <;> simp [hasSameMeta, SameMeta, SameKind]

/-- **C61 (meaning).** Objects with the same meta parameters have chromosomes of the same size, and any chromosome of that size that the
one decodes makes both hold the same values. -/
theorem C61_same_meta_same_decoding (p q : Param R) (s t : Nat) (hp : WFP p s) (hq : WFP q t) (h : p.hasSameMeta q = .ok true) :
    s = t ∧ ∀ chr : List Bool, chr.length = s → (p.setFromChromosome chr).2 = .ok () → (q.setFromChromosome chr).2 = .ok () ∧ SameValues (p.setFromChromosome chr).1 (q.setFromChromosome chr).1 := by
  have hm := (C61_same_meta_iff p q s t hp hq).1.1 h
  cases p with
  | int p =>
    cases q with
    | int q =>
      obtain ⟨h1, h2⟩ := hm
      obtain ⟨a1, a2, a3⟩ := hp
      obtain ⟨b1, b2, b3⟩ := hq
      have e : s = t := by
        rw [h1, h2, b2] at a2; cases a2; rfl
      subst e
      refine ⟨rfl, fun chr hl hok => ?_⟩
      have hs := (IntParam.count_eq_ok b2).2.2.1
      simp only [setFromChromosome, IntParam.setFromChromosome, a1, h1] at hok
      simp only [setFromChromosome, SameValues, IntParam.setFromChromosome, a1, b1, h1]
      rw [IntParam.check_ok.2 (by simp [hl]), IntParam.getInt_spec chr (by omega)] at hok ⊢
      simp only at hok ⊢
      cases hx : int32 ((bitsVal chr : Int) + q.min) with
      | ok v => exact ⟨rfl, rfl⟩
      | throw w => rw [hx] at hok; cases hok
      | ub => rw [hx] at hok; cases hok
    | dbl q => exact hm.elim
    | arr q => exact hm.elim
    | comp _ _ _ => exact hm.elim
  | dbl p =>
    cases q with
    | dbl q =>
      obtain ⟨n, wp⟩ := hp
      obtain ⟨m, wq⟩ := hq
      have e := (dbl_meta wp wq).2.2 hm
      subst e
      refine ⟨rfl, fun chr hl _ => ?_⟩
      simp only [setFromChromosome, (wp.setFrom chr hl).1, (wq.setFrom chr hl).1, SameValues, DblParam.getValue, hm.1, hm.2.2, and_self]
    | int q => exact hm.elim
    | arr q => exact hm.elim
    | comp _ _ _ => exact hm.elim
  | arr p =>
    cases q with
    | arr q =>
      obtain ⟨s1, n, wp, rfl⟩ := hp
      obtain ⟨t1, m, wq, rfl⟩ := hq
      obtain ⟨h1, h2, h3, h4⟩ := hm
      have e := (dbl_meta wp.sample wq.sample).2.2 ⟨h1, h2, h3⟩
      subst e
      refine ⟨by rw [h4], fun chr hl _ => ?_⟩
      obtain ⟨outs, rfl, ho1, ho2⟩ := ArrParam.exists_chunks s1 _ chr hl
      simp only [setFromChromosome, (wp.setFrom outs ho1 ho2), (wq.setFrom outs (by rw [ho1, h4]) ho2), SameValues, h1, h3, and_self]
    | int q => exact hm.elim
    | dbl q => exact hm.elim
    | comp _ _ _ => exact hm.elim
  | comp _ _ _ => cases q <;> exact hm.elim

/-- Non-vacuity: two integer parameters on [0, 4] holding different values agree, one on [1, 4] differs. -/
example : (Param.int ⟨⟨true, 2⟩, 3, 0, 4⟩ : Param ℚ).hasSameMeta (.int ⟨⟨true, 2⟩, 1, 0, 4⟩) = .ok true ∧
    (Param.int ⟨⟨true, 2⟩, 3, 0, 4⟩ : Param ℚ).hasSameMeta (.int ⟨⟨true, 2⟩, 3, 1, 4⟩) = .ok false ∧
    WFP (Param.int ⟨⟨true, 2⟩, 3, 0, 4⟩ : Param ℚ) 2 :=
  ⟨by decide +kernel, by decide +kernel, rfl, DblParam.count_pow 2 (by decide), by constructor <;> decide⟩

/-- **C61 (genetic algorithm).** With well-formed leaf parameters, the initial parameters pass the validation exactly when there are as
many as individuals and each has the class and the settings of the parameters to optimise; otherwise it throws. -/
theorem C61_validate_initial (n : Nat) (p : Param R) (s : Nat) (hp : WFP p s) (ps : List (Param R)) (hps : ∀ q ∈ ps, ∃ t, WFP q t) :
    (GA.validateInitial n p ps = .ok () ↔ ps.length = n ∧ ∀ q ∈ ps, SameMeta q p) ∧
    ((GA.validateInitial n p ps).threw ↔ ¬ (ps.length = n ∧ ∀ q ∈ ps, SameMeta q p)) := by
  have key : ∀ qs : List (Param R), (∀ q ∈ qs, ∃ t, WFP q t) →
      (GA.validateInitial.go p qs = .ok () ∧ ∀ q ∈ qs, SameMeta q p) ∨
      ((GA.validateInitial.go p qs).threw ∧ ¬ ∀ q ∈ qs, SameMeta q p) := by
    intro qs hqs
    induction qs with
    | nil => exact .inl ⟨rfl, by simp⟩
    | cons q qs ih =>
      obtain ⟨t, hq⟩ := hqs q (by simp)
      obtain ⟨h1, h2, h3⟩ := C61_same_meta_iff q p t s hq hp
      have e : DiscreteParams.sameMeta q p = q.hasSameMeta p := rfl
      by_cases hk : SameKind q p
      · by_cases hm : SameMeta q p
        · rcases ih (fun x hx => hqs x (by simp [hx])) with ⟨i1, i2⟩ | ⟨i1, i2⟩
          · left
            refine ⟨?_, by simpa [hm] using i2⟩
            simp only [GA.validateInitial.go, e, h1.2 hm, Res.ok_bind, if_true, i1]
          · right
            refine ⟨?_, by simpa [hm] using i2⟩
            simp only [GA.validateInitial.go, e, h1.2 hm, Res.ok_bind, if_true, i1]
        · right
          refine ⟨?_, by simp [hm]⟩
          simp [GA.validateInitial.go, e, h2.2 ⟨hk, hm⟩]
      · right
        have hm : ¬ SameMeta q p := by
          intro hm
          have := h3.2 hk
          rw [h1.2 hm] at this
          exact this
        refine ⟨?_, by simp [hm]⟩
        have ht := h3.2 hk
        simp only [GA.validateInitial.go, e]
        cases hr : q.hasSameMeta p with
        | ok b => rw [hr] at ht; exact ht.elim
        | throw w => simp
        | ub => rw [hr] at ht; exact ht.elim
  unfold GA.validateInitial
  by_cases hl : ps.length = n
  · simp only [hl, ne_eq, not_true_eq_false, if_false, true_and]
    rcases key ps hps with ⟨i1, i2⟩ | ⟨i1, i2⟩
    · simp only [i1, Res.not_threw_ok, true_iff, false_iff, not_not]
      exact ⟨i2, i2⟩
    · refine ⟨?_, by simp only [i1, true_iff]; exact i2⟩
      constructor
      · intro h; rw [h] at i1; exact i1.elim
      · intro h; exact (i2 h).elim
  · simp [hl]

end K52.Param
