import Verif.Lemmas.Params

set_option linter.unusedSectionVars false

namespace K52
variable {R : Type} [Field R] [LinearOrder R] [IsStrictOrderedRing R] [FloorRing R]
namespace ArrParam

/-- Well-formed array: sample with element size `s`. -/
structure WF (a : ArrParam R) (s : Nat) (n : Int) : Prop where
  sample : DblParam.WF a.sample s n
  cs : a.cs = ⟨true, s * a.values.length⟩

theorem slice_append (a b : List Bool) (s : Nat) (h : a.length = s) : slice (a ++ b) s = .ok (a, b) := by
  unfold slice
  rw [if_neg (by simp [h])]
  subst h; simp

theorem slice_ok {chr : List Bool} {s : Nat} (h : s ≤ chr.length) :
    slice chr s = .ok (chr.take s, chr.drop s) := by
  unfold slice; rw [if_neg (by omega)]

/-- Index in `int` range. -/
def Fits (p : DblParam R) (v : R) : Prop :=
  -2147483648 ≤ DblParam.index p v ∧ DblParam.index p v ≤ 2147483647

theorem encLoop_spec {p : DblParam R} {s : Nat} {n : Int} (h : DblParam.WF p s n) (vs : List R)
    (hv : ∀ v ∈ vs, Fits p v) (chr : List Bool) (hl : chr.length = s * vs.length) :
    ∃ outs : List (List Bool), encLoop p vs chr = .ok outs.flatten ∧
      List.Forall₂ (fun v o => o.length = s ∧ (bitsVal o : Int) = DblParam.index p v % 2 ^ s) vs outs := by
  induction vs generalizing chr with
  | nil =>
    refine ⟨[], ?_, .nil⟩
    simp at hl; subst hl; rfl
  | cons v vs ih =>
    have hl' : chr.length = s + s * vs.length := by rw [hl]; simp; ring
    obtain ⟨outs, e, hf⟩ := ih (fun v' h' => hv v' (by simp [h'])) (chr.drop s) (by simp; omega)
    obtain ⟨es, ws⟩ := h.setValue v (hv v (by simp))
    obtain ⟨o, eo, h1, h2⟩ := ws.setChromosome (hv v (by simp)) (chr.take s) (by simp; omega)
    refine ⟨o :: outs, ?_, .cons ⟨h1, h2⟩ hf⟩
    unfold encLoop
    have hs : p.cs.get = .ok s := by rw [h.cs]; rfl
    rw [hs, Res.ok_bind, slice_ok (by omega), Res.ok_bind]
    simp only
    rw [es, Res.ok_bind, eo, Res.ok_bind, e]
    rfl

theorem decLoop_spec {p : DblParam R} {s : Nat} {n : Int} (h : DblParam.WF p s n) (vs : List R)
    (outs : List (List Bool)) (hl : vs.length = outs.length) (ho : ∀ o ∈ outs, o.length = s) :
    decLoop p vs outs.flatten = (outs.map (fun o => (bitsVal o : R) * p.prec + p.min), .ok ()) := by
  induction vs generalizing outs with
  | nil =>
    have : outs = [] := by simpa using hl.symm
    subst this; rfl
  | cons v vs ih =>
    cases outs with
    | nil => simp at hl
    | cons o outs =>
      have hs : p.cs.get = .ok s := by rw [h.cs]; rfl
      obtain ⟨e, w⟩ := h.setFrom o (ho o (by simp))
      have ih' := ih outs (by simpa using hl) (fun o' h' => ho o' (by simp [h']))
      unfold decLoop
      simp only [hs, List.flatten_cons, slice_append o outs.flatten s (ho o (by simp)), e, w.getValue, ih']
      simp

theorem WF.setChromosome {a : ArrParam R} {s : Nat} {n : Int} (h : WF a s n)
    (hv : ∀ v ∈ a.values, Fits a.sample v) (chr : List Bool) (hl : chr.length = s * a.values.length) :
    ∃ outs : List (List Bool), a.setChromosome chr = .ok outs.flatten ∧
      List.Forall₂ (fun v o => o.length = s ∧ (bitsVal o : Int) = DblParam.index a.sample v % 2 ^ s) a.values outs := by
  obtain ⟨outs, e, hf⟩ := encLoop_spec h.sample a.values hv chr hl
  refine ⟨outs, ?_, hf⟩
  unfold ArrParam.setChromosome
  rw [IntParam.check_ok.2 (by simp [h.cs, hl])]
  exact e

/-- cutting a list into pieces of equal length -/
theorem exists_chunks (s k : Nat) (chr : List Bool) (hl : chr.length = s * k) :
    ∃ outs : List (List Bool), chr = outs.flatten ∧ outs.length = k ∧ ∀ o ∈ outs, o.length = s := by
  induction k generalizing chr with
  | zero =>
    simp at hl; exact ⟨[], by simp [hl], rfl, by simp⟩
  | succ k ih =>
    have hl' : chr.length = s + s * k := by rw [hl]; ring
    obtain ⟨outs, e, h1, h2⟩ := ih (chr.drop s) (by simp; omega)
    refine ⟨chr.take s :: outs, ?_, by simp [h1], ?_⟩
    · rw [List.flatten_cons, ← e, List.take_append_drop]
    · intro o ho
      simp only [List.mem_cons] at ho
      rcases ho with rfl | ho
      · simp; omega
      · exact h2 o ho

theorem WF.setFrom {a : ArrParam R} {s : Nat} {n : Int} (h : WF a s n) (outs : List (List Bool))
    (hl : outs.length = a.values.length) (ho : ∀ o ∈ outs, o.length = s) :
    a.setFromChromosome outs.flatten =
      ({ a with values := outs.map (fun o => (bitsVal o : R) * a.sample.prec + a.sample.min) }, .ok ()) := by
  have hlen : outs.flatten.length = s * a.values.length := by
    rw [List.length_flatten, ← hl]
    have : outs.map List.length = outs.map (fun _ => s) := List.map_congr_left ho
    rw [this]; simp [mul_comm]
  unfold ArrParam.setFromChromosome
  rw [IntParam.check_ok.2 (by simp [h.cs, hlen])]
  simp only [decLoop_spec h.sample a.values outs hl.symm ho]

theorem fits_of_range {p : DblParam R} {s : Nat} {n : Int} (h : DblParam.WF p s n) {v : R} (h1 : p.min ≤ v) (h2 : v ≤ p.max) :
    Fits p v := by
  have hr := h.index_range h1 h2
  have := DblParam.pow_le_30 h.small
  unfold Fits; omega

/-- a stored value passes the element check exactly in the open interval one precision wider on both sides -/
theorem index_accept {p : DblParam R} {s : Nat} {n : Int} (h : DblParam.WF p s n) (v : R) :
    (0 ≤ DblParam.index p v ∧ DblParam.index p v ≤ 2 ^ s) ↔ (p.min - p.prec < v ∧ v < p.max + p.prec) := by
  have hp := h.prec_pos
  have hm := h.max_eq
  generalize hx : (v - p.min) / p.prec = x
  have hv : v = x * p.prec + p.min := by
    rw [← hx, div_mul_cancel₀ _ hp.ne']; ring
  have hi : DblParam.index p v = truncZ x := by unfold DblParam.index; rw [hx]
  have e1 : p.min - p.prec < v ↔ -1 < x := by
    rw [hv]
    constructor
    · intro h1
      have : (-1) * p.prec < x * p.prec := by linarith
      exact lt_of_mul_lt_mul_right this hp.le
    · intro h1
      have := mul_lt_mul_of_pos_right h1 hp
      linarith
  have e2 : v < p.max + p.prec ↔ x < 2 ^ s + 1 := by
    rw [hv, hm]
    constructor
    · intro h1
      have : x * p.prec < (2 ^ s + 1) * p.prec := by linarith
      exact lt_of_mul_lt_mul_right this hp.le
    · intro h1
      have := mul_lt_mul_of_pos_right h1 hp
      linarith
  rw [e1, e2, hi]
  unfold truncZ
  split
  · next h0 =>
    constructor
    · rintro ⟨_, h2⟩
      refine ⟨by linarith, ?_⟩
      have : x < (⌊x⌋ : R) + 1 := Int.lt_floor_add_one x
      have h3 : ((⌊x⌋ : Int) : R) ≤ ((2 ^ s : Int) : R) := by exact_mod_cast h2
      push_cast at h3; linarith
    · rintro ⟨_, h2⟩
      refine ⟨Int.floor_nonneg.2 h0, ?_⟩
      have : ⌊x⌋ < 2 ^ s + 1 := Int.floor_lt.2 (by push_cast; exact h2)
      omega
  · next h0 =>
    rw [not_le] at h0
    have hpos : (0 : R) < 2 ^ s := by positivity
    constructor
    · rintro ⟨h1, _⟩
      refine ⟨?_, by linarith⟩
      have : (-1 : Int) < ⌈x⌉ := by omega
      have := Int.lt_ceil.1 this
      push_cast at this; exact this
    · rintro ⟨h1, _⟩
      have : (-1 : Int) < ⌈x⌉ := Int.lt_ceil.2 (by push_cast; exact h1)
      have h3 : ⌈x⌉ ≤ 0 := Int.ceil_le.2 (by push_cast; exact h0.le)
      have : (0 : Int) < 2 ^ s := by positivity
      omega

theorem checkLoop_true {p : DblParam R} {s : Nat} {n : Int} (h : DblParam.WF p s n) (vs : List R) :
    checkLoop p vs = .ok true ↔ ∀ v ∈ vs, p.min - p.prec < v ∧ v < p.max + p.prec := by
  induction vs with
  | nil => simp [checkLoop]
  | cons v vs ih =>
    unfold checkLoop
    by_cases hf : Fits p v
    · obtain ⟨es, ws⟩ := h.setValue v hf
      rw [es, Res.ok_bind, ws.checkConstraints, Res.ok_bind]
      by_cases hok : 0 ≤ DblParam.index p v ∧ DblParam.index p v ≤ 2 ^ s
      · have := (index_accept h v).1 hok
        simp only [decide_eq_true hok, if_true, ih, List.mem_cons, forall_eq_or_imp, this, true_and, and_true]
      · have : ¬ (p.min - p.prec < v ∧ v < p.max + p.prec) := fun hh => hok ((index_accept h v).2 hh)
        simp [hok]
        intro h1 h2
        exact absurd ⟨h1, h2⟩ this
    · have hnot : ¬ (p.min - p.prec < v ∧ v < p.max + p.prec) := by
        intro hh
        have := (index_accept h v).2 hh
        have := DblParam.pow_le_30 h.small
        exact hf (by unfold Fits; omega)
      have : p.setValue v = .ub := by
        unfold DblParam.setValue
        rw [if_neg h.prec_pos.ne']
        have : toInt32 ((v - p.min) / p.prec) = .ub := by
          unfold toInt32
          rw [trunc_eq]
          rcases int32_cases (truncZ ((v - p.min) / p.prec)) with e | e
          · exact absurd (int32_ok.1 e).2 hf
          · exact e
        rw [this]; rfl
      rw [this]
      simp
      intro h1 h2
      exact absurd ⟨h1, h2⟩ hnot

theorem checkLoop_no_throw {p : DblParam R} {s : Nat} {n : Int} (h : DblParam.WF p s n) (vs : List R) (w : String) :
    checkLoop p vs ≠ .throw w := by
  induction vs with
  | nil => simp [checkLoop]
  | cons v vs ih =>
    unfold checkLoop
    by_cases hf : Fits p v
    · obtain ⟨es, ws⟩ := h.setValue v hf
      rw [es, Res.ok_bind, ws.checkConstraints, Res.ok_bind]
      split
      · exact ih
      · simp
    · have : p.setValue v = .ub := by
        unfold DblParam.setValue
        rw [if_neg h.prec_pos.ne']
        have : toInt32 ((v - p.min) / p.prec) = .ub := by
          unfold toInt32
          rw [trunc_eq]
          rcases int32_cases (truncZ ((v - p.min) / p.prec)) with e | e
          · exact absurd (int32_ok.1 e).2 hf
          · exact e
        rw [this]; rfl
      rw [this]; simp

theorem checkLoop_fits {p : DblParam R} {s : Nat} {n : Int} (h : DblParam.WF p s n) (vs : List R)
    (hf : ∀ v ∈ vs, Fits p v) : checkLoop p vs ≠ .ub := by
  induction vs with
  | nil => simp [checkLoop]
  | cons v vs ih =>
    unfold checkLoop
    obtain ⟨es, ws⟩ := h.setValue v (hf v (by simp))
    rw [es, Res.ok_bind, ws.checkConstraints, Res.ok_bind]
    split
    · exact ih (fun v' h' => hf v' (by simp [h']))
    · simp

theorem new_eq_ok {min max dp : R} {k : Nat} {a : ArrParam R} (h : new min max dp k = .ok a) :
    ∃ s n, DblParam.new min min max dp = .ok a.sample ∧ WF a s n ∧ a.values = List.replicate k 0 := by
  unfold new at h
  rw [Res.bind_eq_ok] at h
  obtain ⟨sm, h1, h⟩ := h
  obtain ⟨s, w, _⟩ := DblParam.new_eq_ok h1
  rw [w.cs] at h
  simp [ConstSize.get, ConstSize.set, ConstSize.new] at h
  subst h
  exact ⟨s, _, h1, ⟨w, by simp⟩, rfl⟩

end ArrParam
end K52
