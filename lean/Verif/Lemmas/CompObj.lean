import Verif.Model.CompObj
import Verif.Lemmas.ParamTotal

/-! # Lemmas about composite objects over histories of calls (for C127) -/

set_option linter.unusedSectionVars false

namespace K52.Param
variable {R : Type} [Field R] [LinearOrder R] [IsStrictOrderedRing R] [FloorRing R]

mutual
/-- Objects whose values lie in the closed ranges satisfy their constraints. -/
theorem check_within : ∀ (p : Param R) (s : Nat), WFP p s → Within p → p.checkConstraints = .ok true
  | .int p, s, h, hw => by
    simp only [Within] at hw
    simp [checkConstraints, IntParam.checkConstraints, hw.1, hw.2]
  | .dbl p, s, h, hw => by
    simp only [Within] at hw
    obtain ⟨v, hv, h1, h2⟩ := hw
    simp [checkConstraints, DblParam.checkConstraints, hv, DblParam.checkBounds, h1, h2]
  | .arr a, s, h, hw => by
    simp only [WFP] at h
    simp only [Within] at hw
    obtain ⟨s1, n, w, rfl⟩ := h
    simp only [checkConstraints, ArrParam.checkConstraints]
    rw [ArrParam.checkLoop_true w.sample]
    intro v hv
    have hp := w.sample.prec_pos
    obtain ⟨h1, h2⟩ := hw v hv
    constructor <;> linarith
  | .comp cs init ms, s, h, hw => by
    simp only [WFP] at h
    simp only [Within] at hw
    obtain ⟨rfl, rfl, hm⟩ := h
    simp only [checkConstraints, if_true]
    exact checkAll_within ms s hm hw
theorem checkAll_within : ∀ (ms : List (Param R)) (s : Nat), WFL ms s → Withins ms → checkAll ms = .ok true
  | [], _, _, _ => by simp [checkAll]
  | m :: ms, s, h, hw => by
    simp only [WFL] at h
    obtain ⟨s1, s2, rfl, h1, h2⟩ := h
    simp only [Withins] at hw
    simp [checkAll, check_within m s1 h1 hw.1, checkAll_within ms s2 h2 hw.2]
end

theorem WFL.append {as bs : List (Param R)} {s t : Nat} (ha : WFL as s) (hb : WFL bs t) : WFL (as ++ bs) (s + t) := by
  induction as generalizing s with
  | nil => simp only [WFL] at ha; subst ha; simpa using hb
  | cons m ms ih =>
    simp only [WFL] at ha
    obtain ⟨s1, s2, rfl, h1, h2⟩ := ha
    simp only [List.cons_append, WFL]
    exact ⟨s1, s2 + t, by omega, h1, ih h2⟩

/-- Replacing a member by a sound one of the same size. -/
theorem WFL.set {ms : List (Param R)} {s : Nat} (h : WFL ms s) (i : Nat) (q : Param R)
    (hq : ∀ m, ms[i]? = some m → ∃ t, WFP m t ∧ WFP q t) : WFL (ms.set i q) s := by
  induction ms generalizing s i with
  | nil => simpa using h
  | cons m ms ih =>
    simp only [WFL] at h
    obtain ⟨s1, s2, rfl, h1, h2⟩ := h
    cases i with
    | zero =>
      obtain ⟨t, ht, hqt⟩ := hq m rfl
      have e := h1.size
      rw [ht.size] at e
      simp only [Res.ok.injEq] at e
      subst e
      simp only [List.set_cons_zero, WFL]
      exact ⟨t, s2, rfl, hqt, h2⟩
    | succ i =>
      simp only [List.set_cons_succ, WFL]
      exact ⟨s1, s2, rfl, h1, ih h2 i (fun m hm => hq m (by simpa using hm))⟩

theorem WFL.mem {ms : List (Param R)} {s : Nat} (h : WFL ms s) : ∀ m ∈ ms, ∃ t, WFP m t := by
  induction ms generalizing s with
  | nil => simp
  | cons m ms ih =>
    simp only [WFL] at h
    obtain ⟨s1, s2, rfl, h1, h2⟩ := h
    intro x hx
    rcases List.mem_cons.1 hx with rfl | hx
    · exact ⟨s1, h1⟩
    · exact ih h2 x hx

theorem WFL.of_mem {ms : List (Param R)} (h : ∀ m ∈ ms, ∃ t, WFP m t) : ∃ s, WFL ms s := by
  induction ms with
  | nil => exact ⟨0, by simp [WFL]⟩
  | cons m ms ih =>
    obtain ⟨t, ht⟩ := h m (by simp)
    obtain ⟨s, hs⟩ := ih fun x hx => h x (by simp [hx])
    exact ⟨t + s, by simp only [WFL]; exact ⟨t, s, rfl, ht, hs⟩⟩

end K52.Param

namespace K52.CompObj
open K52.Param
variable {R : Type} [Field R] [LinearOrder R] [IsStrictOrderedRing R] [FloorRing R]

/-! ### the loops on vectors without null pointers are those of the value model -/

theorem countTotal_some (ms : List (Param R)) : countTotal (ms.map some) = totalSize ms := by
  induction ms with
  | nil => rfl
  | cons m ms ih => simp only [List.map_cons, countTotal, totalSize, ih]

theorem checkLoop_some (ms : List (Param R)) : checkLoop (ms.map some) = checkAll ms := by
  induction ms with
  | nil => simp [checkLoop, checkAll]
  | cons m ms ih => simp only [List.map_cons, checkLoop, checkAll, ih]

theorem encLoop_some (ms : List (Param R)) (chr : List Bool) : encLoop (ms.map some) chr = encAll ms chr := by
  induction ms generalizing chr with
  | nil => simp [encLoop, encAll]
  | cons m ms ih => simp only [List.map_cons, encLoop, encAll, ih]

theorem decLoop_some (ms : List (Param R)) (chr : List Bool) :
    decLoop (ms.map some) chr = ((decAll ms chr).1.map some, (decAll ms chr).2) := by
  induction ms generalizing chr with
  | nil => simp [decLoop, decAll]
  | cons m ms ih =>
    unfold decAll
    simp only [List.map_cons, decLoop]
    cases m.chromosomeSize with
    | throw w => rfl
    | ub => rfl
    | ok s =>
      simp only
      cases slice chr s with
      | throw w => rfl
      | ub => rfl
      | ok x =>
        obtain ⟨cur, rest⟩ := x
        simp only
        rcases m.setFromChromosome cur with ⟨m', r⟩
        cases r with
        | throw w => rfl
        | ub => rfl
        | ok u => simp only [ih]; rfl

theorem cloneLoop_wf (ms : List (Param R)) {s : Nat} (h : WFL ms s) : cloneLoop (ms.map some) = (ms.map some, .ok ()) := by
  induction ms generalizing s with
  | nil => rfl
  | cons m ms ih =>
    simp only [WFL] at h
    obtain ⟨s1, s2, rfl, h1, h2⟩ := h
    simp only [List.map_cons, cloneLoop, clone_aux m s1 h1, ih h2]

/-- A vector whose cloning stops at a member. -/
theorem cloneLoop_stop (ms : List (Param R)) {s : Nat} (h : WFL ms s) (p : Param R) (w : String) (hp : p.clone = .throw w)
    (post : List (Option (Param R))) :
    cloneLoop (ms.map some ++ some p :: post) = (ms.map some ++ List.replicate (post.length + 1) none, .throw w) := by
  induction ms generalizing s with
  | nil => simp [cloneLoop, hp, List.replicate_succ]
  | cons m ms ih =>
    simp only [WFL] at h
    obtain ⟨s1, s2, rfl, h1, h2⟩ := h
    simp only [List.map_cons, List.cons_append, cloneLoop, clone_aux m s1 h1, ih h2]

/-- When the clone loop ends normally no pointer is null. -/
theorem cloneLoop_ok {ps ms : List (Option (Param R))} (h : cloneLoop ps = (ms, .ok ())) :
    ∃ as bs, ps = as.map some ∧ ms = bs.map some ∧ cloneAll as = .ok bs := by
  induction ps generalizing ms with
  | nil =>
    simp only [cloneLoop, Prod.mk.injEq] at h
    exact ⟨[], [], rfl, by simp [h.1], by simp [cloneAll]⟩
  | cons p ps ih =>
    cases p with
    | none => simp [cloneLoop] at h
    | some p =>
      simp only [cloneLoop] at h
      cases hc : p.clone with
      | throw w => rw [hc] at h; simp at h
      | ub => rw [hc] at h; simp at h
      | ok q =>
        rw [hc] at h
        simp only [Prod.mk.injEq] at h
        obtain ⟨as, bs, e1, e2, e3⟩ := ih (ms := (cloneLoop ps).1) (by rw [← h.2])
        refine ⟨p :: as, q :: bs, by simp [e1], by rw [← h.1, e2]; rfl, ?_⟩
        simp [cloneAll, hc, e3]

/-- Chromosome sizes through a too long vector: the loop runs out of the range. -/
theorem encLoop_short (ms : List (Param R)) {t : Nat} (h : WFL ms t) (rest : List (Option (Param R))) (chr : List Bool)
    (hl : chr.length < t) : ∀ out, encLoop (ms.map some ++ rest) chr ≠ .ok out := by
  induction ms generalizing t chr with
  | nil => simp only [WFL] at h; omega
  | cons m ms ih =>
    simp only [WFL] at h
    obtain ⟨s1, s2, rfl, h1, h2⟩ := h
    intro out e
    simp only [List.map_cons, List.cons_append, encLoop, h1.size, Res.ok_bind] at e
    by_cases hc : chr.length < s1
    · simp [slice, hc] at e
    · rw [ArrParam.slice_ok (by omega), Res.ok_bind] at e
      obtain ⟨o, _, e⟩ := Res.bind_eq_ok.1 e
      obtain ⟨os, e2, _⟩ := Res.bind_eq_ok.1 e
      exact ih h2 (chr.drop s1) (by simp; omega) os e2

theorem encLoop_short_ub (ms : List (Param R)) {t : Nat} (h : WFL ms t) (hw : Withins ms) (chr : List Bool)
    (hl : chr.length < t) : encLoop (ms.map some) chr = .ub := by
  induction ms generalizing t chr with
  | nil => simp only [WFL] at h; omega
  | cons m ms ih =>
    simp only [WFL] at h
    obtain ⟨s1, s2, rfl, h1, h2⟩ := h
    simp only [Withins] at hw
    simp only [List.map_cons, encLoop, h1.size, Res.ok_bind]
    by_cases hc : chr.length < s1
    · simp [slice, hc]
    · obtain ⟨o, e⟩ := enc_total m s1 (chr.take s1) h1 hw.1 (by simp; omega)
      rw [ArrParam.slice_ok (by omega), Res.ok_bind]
      simp only [e, Res.ok_bind, ih h2 hw.2 (chr.drop s1) (by simp; omega), Res.ub_bind]

/-- What a vector with room to spare does to a longer range: the rest of the range stays. -/
theorem encLoop_long (ms : List (Param R)) {t : Nat} (h : WFL ms t) (hw : Withins ms) (chr : List Bool) (hl : t ≤ chr.length) :
    ∃ out, out.length = t ∧ encLoop (ms.map some) (chr.take t) = .ok out ∧ encLoop (ms.map some) chr = .ok (out ++ chr.drop t) := by
  induction ms generalizing t chr with
  | nil =>
    simp only [WFL] at h; subst h
    exact ⟨[], by simp, by simp [encLoop], by simp [encLoop]⟩
  | cons m ms ih =>
    simp only [WFL] at h
    obtain ⟨s1, s2, rfl, h1, h2⟩ := h
    simp only [Withins] at hw
    obtain ⟨o, e⟩ := enc_total m s1 (chr.take s1) h1 hw.1 (by simp; omega)
    obtain ⟨os, l, e1, e2⟩ := ih h2 hw.2 (chr.drop s1) (by simp; omega)
    have ol : o.length = s1 := by
      have := enc_length m (chr.take s1) o e
      simp at this; omega
    refine ⟨o ++ os, by simp [ol, l], ?_, ?_⟩
    · simp only [List.map_cons, encLoop, h1.size, Res.ok_bind]
      rw [ArrParam.slice_ok (by simp; omega)]
      have t1 : List.take s1 (List.take (s1 + s2) chr) = chr.take s1 := by rw [List.take_take]; congr 1; omega
      have t2 : List.drop s1 (List.take (s1 + s2) chr) = (chr.drop s1).take s2 := by rw [List.drop_take]; congr 1; omega
      simp only [Res.ok_bind, t1, t2, e, e1, Res.pure_eq]
    · simp only [List.map_cons, encLoop, h1.size, Res.ok_bind]
      rw [ArrParam.slice_ok (by omega)]
      simp only [Res.ok_bind, e, e2, Res.pure_eq, List.drop_drop, List.append_assoc]

/-- Decoding from a too short range runs past its end. -/
theorem decLoop_short_ub (ms : List (Param R)) {t : Nat} (h : WFL ms t) (hf : IntsFits ms) (chr : List Bool)
    (hl : chr.length < t) : (decLoop (ms.map some) chr).2 = .ub := by
  induction ms generalizing t chr with
  | nil => simp only [WFL] at h; omega
  | cons m ms ih =>
    simp only [WFL] at h
    obtain ⟨s1, s2, rfl, h1, h2⟩ := h
    simp only [IntsFits] at hf
    simp only [List.map_cons, decLoop, h1.size]
    by_cases hc : chr.length < s1
    · simp [slice, hc]
    · obtain ⟨q, e, _⟩ := dec_total m s1 (chr.take s1) h1 hf.1 (by simp; omega)
      rw [ArrParam.slice_ok (by omega)]
      simp only [e]
      exact ih h2 hf.2 (chr.drop s1) (by simp; omega)

theorem decLoop_short (ms : List (Param R)) {t : Nat} (h : WFL ms t) (rest : List (Option (Param R))) (chr : List Bool)
    (hl : chr.length < t) : (decLoop (ms.map some ++ rest) chr).2 ≠ .ok () := by
  induction ms generalizing t chr with
  | nil => simp only [WFL] at h; omega
  | cons m ms ih =>
    simp only [WFL] at h
    obtain ⟨s1, s2, rfl, h1, h2⟩ := h
    simp only [List.map_cons, List.cons_append, decLoop, h1.size]
    by_cases hc : chr.length < s1
    · simp [slice, hc]
    · rw [ArrParam.slice_ok (by omega)]
      simp only
      rcases hq : m.setFromChromosome (chr.take s1) with ⟨q, r⟩
      cases r with
      | throw w => simp
      | ub => simp
      | ok u => exact ih h2 (chr.drop s1) (by simp; omega)

/-- Decoding from a longer range reads its beginning only. -/
theorem decLoop_take (ms : List (Param R)) {t : Nat} (h : WFL ms t) (chr : List Bool) (hl : t ≤ chr.length) :
    decLoop (ms.map some) chr = decLoop (ms.map some) (chr.take t) := by
  induction ms generalizing t chr with
  | nil => simp [decLoop]
  | cons m ms ih =>
    simp only [WFL] at h
    obtain ⟨s1, s2, rfl, h1, h2⟩ := h
    simp only [List.map_cons, decLoop, h1.size]
    rw [ArrParam.slice_ok (by omega), ArrParam.slice_ok (by simp; omega)]
    have t1 : List.take s1 (List.take (s1 + s2) chr) = chr.take s1 := by rw [List.take_take]; congr 1; omega
    have t2 : List.drop s1 (List.take (s1 + s2) chr) = (chr.drop s1).take s2 := by rw [List.drop_take]; congr 1; omega
    simp only [t1, t2, ih h2 (chr.drop s1) (by simp; omega)]

/-- A null pointer in the vector: no loop ends normally (the constraint loop may, if an earlier member violates its own). -/
theorem encLoop_null (ms : List (Option (Param R))) (hn : none ∈ ms) (chr : List Bool) : ∀ out, encLoop ms chr ≠ .ok out := by
  induction ms generalizing chr with
  | nil => simp at hn
  | cons m ms ih =>
    intro out e
    cases m with
    | none => simp [encLoop] at e
    | some m =>
      simp only [encLoop] at e
      obtain ⟨s, _, e⟩ := Res.bind_eq_ok.1 e
      obtain ⟨⟨cur, rest⟩, _, e⟩ := Res.bind_eq_ok.1 e
      obtain ⟨o, _, e⟩ := Res.bind_eq_ok.1 e
      obtain ⟨os, e2, _⟩ := Res.bind_eq_ok.1 e
      exact ih (by simpa using hn) rest os e2

theorem decLoop_null (ms : List (Option (Param R))) (hn : none ∈ ms) (chr : List Bool) : (decLoop ms chr).2 ≠ .ok () := by
  induction ms generalizing chr with
  | nil => simp at hn
  | cons m ms ih =>
    cases m with
    | none => simp [decLoop]
    | some m =>
      simp only [decLoop]
      cases m.chromosomeSize with
      | throw w => simp
      | ub => simp
      | ok s =>
        simp only
        cases slice chr s with
        | throw w => simp
        | ub => simp
        | ok x =>
          obtain ⟨cur, rest⟩ := x
          simp only
          rcases m.setFromChromosome cur with ⟨m', r⟩
          cases r with
          | throw w => simp
          | ub => simp
          | ok u => exact ih (by simpa using hn) rest

theorem checkLoop_null (ms : List (Option (Param R))) (hn : none ∈ ms) : checkLoop ms ≠ .ok true := by
  induction ms with
  | nil => simp at hn
  | cons m ms ih =>
    intro e
    cases m with
    | none => simp [checkLoop] at e
    | some m =>
      simp only [checkLoop] at e
      obtain ⟨b, _, e⟩ := Res.bind_eq_ok.1 e
      cases b with
      | false => simp at e
      | true => exact ih (by simpa using hn) (by simpa using e)

theorem checkLoop_null_ub (ms : List (Param R)) {t : Nat} (h : WFL ms t) (hw : Withins ms) (rest : List (Option (Param R))) :
    checkLoop (ms.map some ++ none :: rest) = .ub := by
  induction ms generalizing t with
  | nil => rfl
  | cons m ms ih =>
    simp only [WFL] at h
    obtain ⟨s1, s2, rfl, h1, h2⟩ := h
    simp only [Withins] at hw
    simp only [List.map_cons, List.cons_append, checkLoop, check_within m s1 h1 hw.1, Res.ok_bind, if_true, ih h2 hw.2]

theorem cloneLoop_null (ms : List (Param R)) {t : Nat} (h : WFL ms t) (rest : List (Option (Param R))) :
    (cloneLoop (ms.map some ++ none :: rest)).2 = .ub := by
  induction ms generalizing t with
  | nil => rfl
  | cons m ms ih =>
    simp only [WFL] at h
    obtain ⟨s1, s2, rfl, h1, h2⟩ := h
    simp only [List.map_cons, List.cons_append, cloneLoop, clone_aux m s1 h1, ih h2]

end K52.CompObj
