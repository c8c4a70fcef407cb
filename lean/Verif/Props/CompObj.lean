import Verif.Lemmas.CompObj

/-!
# Property C127: one `CompositeDiscreteParameters` object under every sequence of calls

`C127_sound`, `C127_as_value`, `C127_defined`: until a second `Initialize` the object is either not initialised or a sound composite value,
to which C13–C15 apply, and no call is undefined.  `C127_uninitialized`, `C127_retry`: before, and after failed first initialisations.
`C127_latch`: what no call ever changes again.  `C127_second`, `C127_second_equal`, `C127_second_longer`, `C127_second_shorter`,
`C127_second_stopped`: the second `Initialize` always throws but takes effect; when the later calls are undefined.  `C127_edit`: changing a
member through the pointer of `GetParameter`.
-/

set_option linter.unusedSectionVars false

namespace K52.CompObj
open K52.Param
variable {R : Type} [Field R] [LinearOrder R] [IsStrictOrderedRing R] [FloorRing R]

/-- What may be handed to `Initialize`: a sound object, a composite that is not initialised, or a default-constructed `DoubleParameter`. -/
def Usable (p : Param R) : Prop := (∃ s, WFP p s) ∨ (∃ cs ms, p = .comp cs false ms) ∨ p = .dbl DblParam.default

/-- A call that is not a second initialisation, passes no null pointer, and changes a member only to a sound object of the same size. -/
def Tame (o : Obj R) : Op R → Prop
  | .init ps => o.init = false ∧ ∀ p ∈ ps, ∃ a, p = some a ∧ Usable a
  | .initSample p n => o.init = false ∧ (0 < n → ∃ a, p = some a ∧ Usable a)
  | .edit i q => ∀ m, o.members[i]? = some (some m) → ∃ t, WFP m t ∧ WFP q t
  | _ => True

/-- The numbers involved fit: values to be encoded or checked lie in their ranges, decoded integers fit `int`, and an index is not the largest
`size_t`. -/
def Harmless (o : Obj R) : Op R → Prop
  | .check | .setChr _ => ∀ ms, o.members = ms.map some → Withins ms
  | .setFrom _ => ∀ ms, o.members = ms.map some → IntsFits ms
  | .get i | .edit i _ => i + 1 < 2 ^ 64
  | _ => True

/-- Every call of the sequence meets the condition in the state it is made in. -/
def Every (C : Obj R → Op R → Prop) : Obj R → List (Op R) → Prop
  | _, [] => True
  | o, op :: ops => C o op ∧ Every C (step o op).1 ops

/-- Not initialised, or a sound composite value. -/
def Sound (o : Obj R) : Prop :=
  (o.init = false ∧ o.cs = ConstSize.new) ∨
  ∃ ms s, o = ⟨⟨true, s⟩, true, ms.map some⟩ ∧ WFP (.comp ⟨true, s⟩ true ms) s

theorem usable_clone {p : Param R} (h : Usable p) : p.clone ≠ .ub := by
  rcases h with ⟨s, h⟩ | ⟨cs, ms, rfl⟩ | rfl
  · simp [clone_aux p s h]
  · simp [Param.clone]
  · simp [Param.clone, DblParam.clone, DblParam.default]

theorem usable_sized {p q : Param R} {s : Nat} (h : Usable p) (hc : p.clone = .ok q) (hs : q.chromosomeSize = .ok s) :
    q = p ∧ WFP p s := by
  rcases h with ⟨t, h⟩ | ⟨cs, ms, rfl⟩ | rfl
  · rw [clone_aux p t h] at hc
    simp only [Res.ok.injEq] at hc
    subst hc
    rw [h.size] at hs
    simp only [Res.ok.injEq] at hs
    subst hs
    exact ⟨rfl, h⟩
  · simp [Param.clone] at hc
  · simp only [Param.clone, DblParam.clone, DblParam.default, Res.pure_eq, Res.ok_bind, Res.ok.injEq] at hc
    subst hc
    simp [Param.chromosomeSize, ConstSize.get, ConstSize.new] at hs

theorem cloneLoop_usable (ps : List (Option (Param R))) (h : ∀ p ∈ ps, ∃ a, p = some a ∧ Usable a) : (cloneLoop ps).2 ≠ .ub := by
  induction ps with
  | nil => simp [cloneLoop]
  | cons p ps ih =>
    obtain ⟨a, rfl, ha⟩ := h p (by simp)
    simp only [cloneLoop]
    have := usable_clone ha
    cases hc : a.clone with
    | ok q => exact ih fun p hp => h p (by simp [hp])
    | throw w => simp
    | ub => exact absurd hc this

theorem cloneAll_usable {as bs : List (Param R)} {s : Nat} (h : ∀ a ∈ as, Usable a) (hc : cloneAll as = .ok bs)
    (ht : totalSize bs = .ok s) : bs = as ∧ WFL as s := by
  induction as generalizing bs s with
  | nil =>
    simp only [cloneAll, Res.ok.injEq] at hc
    subst hc
    simp only [totalSize, Res.ok.injEq] at ht
    exact ⟨rfl, by simp [WFL, ht]⟩
  | cons a as ih =>
    simp only [cloneAll] at hc
    obtain ⟨b, hb, hc⟩ := Res.bind_eq_ok.1 hc
    obtain ⟨bs', hbs, hc⟩ := Res.bind_eq_ok.1 hc
    simp only [Res.pure_eq, Res.ok.injEq] at hc
    subst hc
    simp only [totalSize] at ht
    obtain ⟨s1, h1, ht⟩ := Res.bind_eq_ok.1 ht
    obtain ⟨s2, h2, ht⟩ := Res.bind_eq_ok.1 ht
    simp only [Res.pure_eq, Res.ok.injEq] at ht
    obtain ⟨rfl, w⟩ := usable_sized (h a (by simp)) hb h1
    obtain ⟨rfl, w2⟩ := ih (fun x hx => h x (by simp [hx])) hbs h2
    exact ⟨rfl, by simp only [WFL]; exact ⟨s1, s2, ht.symm, w, w2⟩⟩

/-- The sizes of what a clone loop leaves behind are never undefined. -/
theorem totalSize_ub (ms : List (Param R)) : totalSize ms ≠ .ub := by
  induction ms with
  | nil => simp [totalSize]
  | cons m ms ih =>
    simp only [totalSize]
    have : m.chromosomeSize ≠ .ub := by
      cases m <;> simp only [Param.chromosomeSize, ConstSize.get] <;> split <;> simp
    cases h1 : m.chromosomeSize with
    | ub => exact absurd h1 this
    | throw w => simp
    | ok s =>
      simp only [Res.ok_bind]
      cases h2 : totalSize ms with
      | ub => exact absurd h2 ih
      | throw w => simp
      | ok t => simp

/-- `Initialize` of an object that is not initialised: it ends normally only with sound members, and keeps the object as it was otherwise
(but for the vector, which nothing can see). -/
theorem init_first (o : Obj R) (h0 : o.init = false) (hc : o.cs = ConstSize.new) (ps : List (Option (Param R)))
    (h : ∀ p ∈ ps, ∃ a, p = some a ∧ Usable a) :
    (∃ ms s, ps = ms.map some ∧ WFL ms s ∧ initVec o ps = (⟨⟨true, s⟩, true, ms.map some⟩, .ok ())) ∨
    ((initVec o ps).1.init = false ∧ (initVec o ps).1.cs = ConstSize.new ∧ (initVec o ps).2.threw) := by
  have hu := cloneLoop_usable ps h
  unfold initVec
  rcases hl : cloneLoop ps with ⟨ms, r⟩
  rw [hl] at hu
  cases r with
  | throw w => exact .inr ⟨h0, hc, trivial⟩
  | ub => exact absurd rfl hu
  | ok u =>
    obtain ⟨as, bs, rfl, rfl, e⟩ := cloneLoop_ok hl
    have ha : ∀ a ∈ as, Usable a := by
      intro a hm
      obtain ⟨b, hb, hu⟩ := h (some a) (by simpa using hm)
      simp only [Option.some.injEq] at hb
      subst hb; exact hu
    simp only [countTotal_some]
    cases ht : totalSize bs with
    | throw w => exact .inr ⟨h0, hc, trivial⟩
    | ub => exact absurd ht (totalSize_ub bs)
    | ok t =>
      obtain ⟨rfl, w⟩ := cloneAll_usable ha e ht
      refine .inl ⟨bs, t, rfl, w, ?_⟩
      simp [hc, h0, ConstSize.set, ConstSize.new]

/-- `SetFromChromosome` of a sound composite leaves a sound composite of the same size. -/
theorem sound_setFrom {ms : List (Param R)} {s : Nat} (h : WFL ms s) (c : List Bool) :
    ∃ qs, WFL qs s ∧ (setFromChromosome ⟨⟨true, s⟩, true, ms.map some⟩ c).1 = ⟨⟨true, s⟩, true, qs.map some⟩ := by
  simp only [setFromChromosome, if_true]
  split
  · refine ⟨(decAll ms c).1, wf_decAll ms s c h, ?_⟩
    simp only [decLoop_some]
  · exact ⟨ms, h, rfl⟩
  · exact ⟨ms, h, rfl⟩

theorem sound_edit {ms : List (Param R)} {s : Nat} (h : WFL ms s) (i : Nat) (q : Param R)
    (hq : ∀ m, (ms.map some)[i]? = some (some m) → ∃ t, WFP m t ∧ WFP q t) :
    ∃ qs, WFL qs s ∧ (edit ⟨⟨true, s⟩, true, ms.map some⟩ i q).1 = ⟨⟨true, s⟩, true, qs.map some⟩ := by
  unfold edit
  split
  · refine ⟨ms.set i q, h.set i q (fun m hm => hq m (by simp [hm])), ?_⟩
    simp only [List.map_set]
  all_goals exact ⟨ms, h, rfl⟩

theorem sound_step (o : Obj R) (op : Op R) (h : Sound o) (ht : Tame o op) : Sound (step o op).1 := by
  have hinit : ∀ ps : List (Option (Param R)), o.init = false → (∀ p ∈ ps, ∃ a, p = some a ∧ Usable a) → Sound (initVec o ps).1 := by
    intro ps h0 hp
    rcases h with ⟨_, hc⟩ | ⟨ms, s, rfl, _⟩
    · rcases init_first o h0 hc ps hp with ⟨ms, s, rfl, hw, e⟩ | ⟨e1, e2, _⟩
      · rw [e]; exact .inr ⟨ms, s, rfl, by simp [WFP, hw]⟩
      · exact .inl ⟨e1, e2⟩
    · simp at h0
  cases op with
  | init ps => exact hinit ps ht.1 ht.2
  | initSample p n =>
    refine hinit _ ht.1 fun x hx => ?_
    rw [List.mem_replicate] at hx
    rw [hx.2]
    exact ht.2 (by omega)
  | setFrom c =>
    rcases h with ⟨h0, hc⟩ | ⟨ms, s, rfl, hw⟩
    · exact .inl (by simp [step, setFromChromosome, h0, hc])
    · simp only [WFP] at hw
      obtain ⟨qs, hq, e⟩ := sound_setFrom hw.2.2 c
      exact .inr ⟨qs, s, e, by simp [WFP, hq]⟩
  | edit i q =>
    rcases h with ⟨h0, hc⟩ | ⟨ms, s, rfl, hw⟩
    · exact .inl (by simp [step, edit, getParameter, h0, hc])
    · simp only [WFP] at hw
      obtain ⟨qs, hq, e⟩ := sound_edit hw.2.2 i q ht
      exact .inr ⟨qs, s, e, by simp [WFP, hq]⟩
  | check => exact h
  | setChr c => exact h
  | size => exact h
  | number => exact h
  | get i => exact h
  | clone => exact h
  | sameMeta => exact h

theorem sound_run (o : Obj R) (ops : List (Op R)) (h : Sound o) (ht : Every Tame o ops) : Sound (run o ops).1 := by
  induction ops generalizing o with
  | nil => exact h
  | cons op ops ih => exact ih _ (sound_step o op h ht.1) ht.2

theorem sound_fresh : Sound (fresh : Obj R) := .inl ⟨rfl, rfl⟩

/-- **C127 (soundness).** After every sequence of calls – throwing or not – on a new composite that contains no second initialisation, the
object is either still not initialised, or a sound composite: no member is null, and its size is the sum of its members' sizes. -/
theorem C127_sound (ops : List (Op R)) (h : Every Tame fresh ops) : Sound (run fresh ops).1 := sound_run _ _ sound_fresh h

/-- **C127 (agreement).** An object without null members behaves like the composite value with the same members, so what C13, C14 and C15 say
about values holds for it. -/
theorem C127_as_value (cs : ConstSize) (init : Bool) (ms : List (Param R)) (c : List Bool) :
    checkConstraints ⟨cs, init, ms.map some⟩ = (Param.comp cs init ms).checkConstraints ∧
    setChromosome ⟨cs, init, ms.map some⟩ c = (Param.comp cs init ms).setChromosome c ∧
    (∃ qs, (Param.comp cs init ms).setFromChromosome c = (.comp cs init qs, (setFromChromosome ⟨cs, init, ms.map some⟩ c).2) ∧
      (setFromChromosome ⟨cs, init, ms.map some⟩ c).1 = ⟨cs, init, qs.map some⟩) ∧
    numberOfParameters ⟨cs, init, ms.map some⟩ = (Param.comp cs init ms).numberOfParameters ∧
    (∀ i, getParameter ⟨cs, init, ms.map some⟩ i = wrap some ((Param.comp cs init ms).getParameter i)) ∧
    cs.get = (Param.comp cs init ms).chromosomeSize ∧
    ∀ s, WFP (.comp cs init ms) s → clone ⟨cs, init, ms.map some⟩ = .ok ⟨cs, init, ms.map some⟩ ∧
      (Param.comp cs init ms).clone = .ok (.comp cs init ms) := by
  refine ⟨?_, ?_, ?_, ?_, fun i => ?_, rfl, fun s h => ⟨?_, clone_aux _ s h⟩⟩
  · simp only [checkConstraints, Param.checkConstraints, checkLoop_some]
  · simp only [setChromosome, Param.setChromosome, encLoop_some]
  · cases init with
    | false => exact ⟨ms, by simp [setFromChromosome, Param.setFromChromosome], by simp [setFromChromosome]⟩
    | true =>
      simp only [setFromChromosome, Param.setFromChromosome, if_true]
      cases cs.check c.length with
      | throw w => exact ⟨ms, rfl, rfl⟩
      | ub => exact ⟨ms, rfl, rfl⟩
      | ok u => exact ⟨(decAll ms c).1, by simp only [decLoop_some], by simp only [decLoop_some]⟩
  · simp only [numberOfParameters, Param.numberOfParameters, List.length_map]
  · simp only [getParameter, Param.getParameter, List.length_map]
    split
    · split
      · rfl
      · rw [List.getElem?_map]
        cases ms[i]? <;> rfl
    · rfl
  · simp only [WFP] at h
    obtain ⟨rfl, rfl, hm⟩ := h
    simp [clone, initVec, cloneLoop_wf ms hm, countTotal_some, hm.total, fresh, ConstSize.set, ConstSize.new]

theorem wrap_ub {α β : Type} (f : α → β) {r : Res α} (h : r ≠ .ub) : wrap f r ≠ .ub := by
  cases r <;> simp_all [wrap]

theorem check_res (cs : ConstSize) (n : Nat) : cs.check n ≠ .ub := by
  unfold ConstSize.check
  split
  · split <;> simp
  · simp

theorem step_defined (o : Obj R) (op : Op R) (h : Sound o) (ht : Tame o op) (hh : Harmless o op) : (step o op).2 ≠ .ub := by
  have hinit : ∀ ps : List (Option (Param R)), o.init = false → (∀ p ∈ ps, ∃ a, p = some a ∧ Usable a) → (initVec o ps).2 ≠ .ub := by
    intro ps h0 hp
    rcases h with ⟨_, hc⟩ | ⟨ms, s, rfl, _⟩
    · rcases init_first o h0 hc ps hp with ⟨ms, s, rfl, hw, e⟩ | ⟨_, _, e⟩
      · rw [e]; simp
      · intro hu; rw [hu] at e; exact e
    · simp at h0
  cases op with
  | init ps => exact wrap_ub _ (hinit ps ht.1 ht.2)
  | initSample p n =>
    refine wrap_ub _ (hinit _ ht.1 fun x hx => ?_)
    rw [List.mem_replicate] at hx
    rw [hx.2]
    exact ht.2 (by omega)
  | check =>
    refine wrap_ub _ ?_
    rcases h with ⟨h0, _⟩ | ⟨ms, s, rfl, hw⟩
    · simp [checkConstraints, h0]
    · simp only [WFP] at hw
      simp [checkConstraints, checkLoop_some, checkAll_within ms s hw.2.2 (hh ms rfl)]
  | setChr c =>
    refine wrap_ub _ ?_
    rcases h with ⟨h0, _⟩ | ⟨ms, s, rfl, hw⟩
    · simp [setChromosome, h0]
    · simp only [WFP] at hw
      simp only [setChromosome, if_true]
      cases hc : ConstSize.check ⟨true, s⟩ c.length with
      | throw w => simp
      | ub => exact absurd hc (check_res _ _)
      | ok u =>
        have := IntParam.check_ok.1 hc
        simp at this
        obtain ⟨out, e⟩ := encAll_total ms s c hw.2.2 (hh ms rfl) (by omega)
        simp [encLoop_some, e]
  | setFrom c =>
    refine wrap_ub _ ?_
    rcases h with ⟨h0, _⟩ | ⟨ms, s, rfl, hw⟩
    · simp [setFromChromosome, h0]
    · simp only [WFP] at hw
      simp only [setFromChromosome, if_true]
      cases hc : ConstSize.check ⟨true, s⟩ c.length with
      | throw w => simp
      | ub => exact absurd hc (check_res _ _)
      | ok u =>
        have := IntParam.check_ok.1 hc
        simp at this
        obtain ⟨out, e, _⟩ := decAll_total ms s c hw.2.2 (hh ms rfl) (by omega)
        simp [decLoop_some, e]
  | size =>
    refine wrap_ub _ ?_
    unfold ConstSize.get
    split <;> simp
  | number => refine wrap_ub _ ?_; unfold numberOfParameters; split <;> simp
  | get i =>
    refine wrap_ub _ ?_
    unfold getParameter
    split
    · split
      · simp
      · next hi =>
        have : i + 1 < 2 ^ 64 := hh
        rw [Nat.mod_eq_of_lt this] at hi
        rw [List.getElem?_eq_getElem (by omega)]
        simp
    · simp
  | edit i q =>
    refine wrap_ub _ ?_
    rcases h with ⟨h0, _⟩ | ⟨ms, s, rfl, hw⟩
    · simp [edit, getParameter, h0]
    · unfold edit getParameter
      have : i + 1 < 2 ^ 64 := hh
      rw [Nat.mod_eq_of_lt this]
      simp only [if_true, List.length_map]
      by_cases hi : i + 1 > ms.length
      · simp [hi]
      · have : (ms.map some)[i]? = some (some (ms[i]'(by omega))) := by simp
        simp [hi, this]
  | clone =>
    refine wrap_ub _ ?_
    rcases h with ⟨h0, _⟩ | ⟨ms, s, rfl, hw⟩
    · simp [clone, h0]
    · rw [((C127_as_value ⟨true, s⟩ true ms []).2.2.2.2.2.2 s hw).1]; simp
  | sameMeta => simp [step]

/-- **C127 (definedness).** No call of such a sequence is undefined behaviour, if the numbers involved fit. -/
theorem C127_defined (ops : List (Op R)) (h : Every (fun o op => Tame o op ∧ Harmless o op) fresh ops) :
    ∀ r ∈ (run fresh ops).2, r ≠ .ub := by
  suffices H : ∀ o : Obj R, Sound o → Every (fun o op => Tame o op ∧ Harmless o op) o ops → ∀ r ∈ (run o ops).2, r ≠ .ub from
    H fresh sound_fresh h
  clear h
  induction ops with
  | nil => intro o _ _; simp [run]
  | cons op ops ih =>
    intro o hs he r hr
    simp only [run, List.mem_cons] at hr
    rcases hr with rfl | hr
    · exact step_defined o op hs he.1.1 he.1.2
    · exact ih _ (sound_step o op hs he.1.1) he.2 r hr

/-! ### every sequence of calls whatsoever -/

/-- The initialisation flag and the flag of the chromosome size agree. -/
def Synced (o : Obj R) : Prop := o.cs.wasSet = o.init ∧ (o.init = false → o.cs = ConstSize.new)

theorem initVec_meta (o : Obj R) (hs : Synced o) (ps : List (Option (Param R))) :
    Synced (initVec o ps).1 ∧
    (o.init = true → (initVec o ps).1.cs = o.cs ∧ (initVec o ps).1.init = true ∧ (initVec o ps).2 ≠ .ok ()) ∧
    ((initVec o ps).2 = .ok () → (initVec o ps).1.init = true) := by
  obtain ⟨h1, h2⟩ := hs
  unfold initVec
  rcases cloneLoop ps with ⟨ms, r⟩
  cases r with
  | throw w => exact ⟨⟨h1, h2⟩, fun h => ⟨rfl, h, by simp⟩, by simp⟩
  | ub => exact ⟨⟨h1, h2⟩, fun h => ⟨rfl, h, by simp⟩, by simp⟩
  | ok u =>
    simp only
    cases countTotal ms with
    | throw w => exact ⟨⟨h1, h2⟩, fun h => ⟨rfl, h, by simp⟩, by simp⟩
    | ub => exact ⟨⟨h1, h2⟩, fun h => ⟨rfl, h, by simp⟩, by simp⟩
    | ok t =>
      simp only [ConstSize.set]
      cases hi : o.init with
      | true => simp only [h1, hi, if_true]; exact ⟨⟨by simp [h1, hi], fun h => by simp at h⟩, fun _ => ⟨trivial, trivial, by simp⟩, by simp⟩
      | false => simp only [h1, hi]; simp [Synced]

theorem step_meta (o : Obj R) (hs : Synced o) (op : Op R) :
    Synced (step o op).1 ∧ (o.init = true → (step o op).1.cs = o.cs ∧ (step o op).1.init = true) := by
  cases op with
  | init ps => have := initVec_meta o hs ps; exact ⟨this.1, fun h => ⟨(this.2.1 h).1, (this.2.1 h).2.1⟩⟩
  | initSample p n => have := initVec_meta o hs (List.replicate n p); exact ⟨this.1, fun h => ⟨(this.2.1 h).1, (this.2.1 h).2.1⟩⟩
  | setFrom c =>
    simp only [step, setFromChromosome]
    split
    · split
      · exact ⟨hs, fun h => ⟨rfl, h⟩⟩
      · exact ⟨hs, fun h => ⟨rfl, h⟩⟩
      · exact ⟨hs, fun h => ⟨rfl, h⟩⟩
    · exact ⟨hs, fun h => ⟨rfl, h⟩⟩
  | edit i q =>
    simp only [step, edit]
    split <;> exact ⟨hs, fun h => ⟨rfl, h⟩⟩
  | check => exact ⟨hs, fun h => ⟨rfl, h⟩⟩
  | setChr c => exact ⟨hs, fun h => ⟨rfl, h⟩⟩
  | size => exact ⟨hs, fun h => ⟨rfl, h⟩⟩
  | number => exact ⟨hs, fun h => ⟨rfl, h⟩⟩
  | get i => exact ⟨hs, fun h => ⟨rfl, h⟩⟩
  | clone => exact ⟨hs, fun h => ⟨rfl, h⟩⟩
  | sameMeta => exact ⟨hs, fun h => ⟨rfl, h⟩⟩

theorem synced_run (o : Obj R) (hs : Synced o) (ops : List (Op R)) : Synced (run o ops).1 := by
  induction ops generalizing o with
  | nil => exact hs
  | cons op ops ih => exact ih _ (step_meta o hs op).1

theorem synced_fresh : Synced (fresh : Obj R) := ⟨rfl, fun _ => rfl⟩

/-- An `Initialize` call (of either form). -/
def IsInit : Op R → Prop
  | .init _ | .initSample _ _ => True
  | _ => False

/-- **C127 (latch).** Whatever was called before: once the object is initialised it stays so, `GetChromosomeSize` returns the same number for
ever, and no `Initialize` ever returns normally again. -/
theorem C127_latch (before more : List (Op R)) (hi : (run fresh before).1.init = true) :
    (run (run fresh before).1 more).1.init = true ∧
    ∃ s, (step (run fresh before).1 .size).2 = .ok (.nat s) ∧ (step (run (run fresh before).1 more).1 .size).2 = .ok (.nat s) ∧
    ∀ op : Op R, IsInit op → ∀ x, (step (run (run fresh before).1 more).1 op).2 ≠ .ok x := by
  have hs := synced_run fresh synced_fresh before
  generalize (run fresh before).1 = o at *
  have key : ∀ (more : List (Op R)) (o : Obj R), Synced o → o.init = true →
      (run o more).1.init = true ∧ (run o more).1.cs = o.cs ∧ Synced (run o more).1 := by
    intro more
    induction more with
    | nil => intro o hs hi; exact ⟨hi, rfl, hs⟩
    | cons op ops ih =>
      intro o hs hi
      obtain ⟨k1, k2⟩ := step_meta o hs op
      obtain ⟨a, b, c⟩ := ih _ k1 (k2 hi).2
      exact ⟨a, by simp only [run]; rw [b, (k2 hi).1], c⟩
  obtain ⟨a, b, c⟩ := key more o hs hi
  refine ⟨a, o.cs.size, ?_, ?_, ?_⟩
  · simp [step, ConstSize.get, hs.1, hi, wrap]
  · simp [step, ConstSize.get, b, hs.1, hi, wrap]
  · intro op hop x
    cases op with
    | init ps =>
      have := ((initVec_meta _ c ps).2.1 a).2.2
      simp only [step]
      intro e
      cases hr : (initVec (run o more).1 ps).2 with
      | ok u => exact this hr
      | throw w => rw [hr] at e; simp [wrap] at e
      | ub => rw [hr] at e; simp [wrap] at e
    | initSample p n =>
      have := ((initVec_meta _ c (List.replicate n p)).2.1 a).2.2
      simp only [step, initSample]
      intro e
      cases hr : (initVec (run o more).1 (List.replicate n p)).2 with
      | ok u => exact this hr
      | throw w => rw [hr] at e; simp [wrap] at e
      | ub => rw [hr] at e; simp [wrap] at e
    | _ => exact hop.elim

/-- **C127 (before initialisation).** Whatever was called before: while the object is not initialised every call but `Initialize` (and
`HasSameMetaParameters`, which always throws `runtime_error`) throws `logic_error` and changes nothing. -/
theorem C127_uninitialized (before : List (Op R)) (hi : (run fresh before).1.init = false) (op : Op R) (h : ¬ IsInit op) :
    step (run fresh before).1 op = ((run fresh before).1, .throw (if op matches .sameMeta then "runtime_error" else "logic_error")) := by
  have hs := synced_run fresh synced_fresh before
  generalize (run fresh before).1 = o at *
  cases op with
  | init ps => exact absurd trivial h
  | initSample p n => exact absurd trivial h
  | check => simp [step, checkConstraints, hi, wrap]
  | setChr c => simp [step, setChromosome, hi, wrap]
  | setFrom c => simp [step, setFromChromosome, hi, wrap]
  | size => simp [step, hs.2 hi, ConstSize.get, ConstSize.new, wrap]
  | number => simp [step, numberOfParameters, hi, wrap]
  | get i => simp [step, getParameter, hi, wrap]
  | edit i q => simp [step, edit, getParameter, hi, wrap]
  | clone => simp [step, clone, hi, wrap]
  | sameMeta => simp [step]

/-- **C127 (retry).** Failed initialisations leave no trace: as long as the object is not initialised, `Initialize` does exactly what it would
do on a new object. -/
theorem C127_retry (before : List (Op R)) (hi : (run fresh before).1.init = false) (op : Op R) (h : IsInit op) :
    step (run fresh before).1 op = step fresh op := by
  have hs := synced_run fresh synced_fresh before
  generalize (run fresh before).1 = o at *
  have key : ∀ ps, initVec o ps = initVec fresh ps := by
    intro ps
    unfold initVec
    rw [hs.2 hi, hi]
    obtain ⟨ocs, oi, oms⟩ := o
    have e := hs.2 hi
    simp only at hi e
    subst hi; subst e
    rfl
  cases op with
  | init ps => simp only [step, key]
  | initSample p n => simp only [step, initSample, key]
  | _ => exact h.elim

/-! ### the second initialisation -/

/-- An initialised object after any sequence of calls: what `Initialize` with sound members does. -/
theorem second_eq (o : Obj R) (hs : Synced o) (hi : o.init = true) (ps : List (Param R)) {t : Nat} (hp : WFL ps t) :
    initVec o (ps.map some) = (⟨o.cs, true, ps.map some⟩, .throw "logic_error") := by
  obtain ⟨cs, i, ms⟩ := o
  obtain ⟨h1, -⟩ := hs
  simp only at hi h1
  subst hi
  simp [initVec, cloneLoop_wf ps hp, countTotal_some, hp.total, ConstSize.set, h1]

/-- **C127 (second initialisation).** Whatever was called before: on an initialised object `Initialize` with sound parameters throws
`logic_error` – but has replaced the members by copies of the new ones; the size stays the first one. -/
theorem C127_second (before : List (Op R)) (hi : (run fresh before).1.init = true) (ps : List (Param R)) (t : Nat) (hp : WFL ps t) :
    step (run fresh before).1 (.init (ps.map some)) =
      (⟨(run fresh before).1.cs, true, ps.map some⟩, .throw "logic_error") := by
  simp only [step, second_eq _ (synced_run fresh synced_fresh before) hi ps hp, wrap]

/-- **C127 (equal size).** If the new members have the size of the first ones in total, the object is afterwards exactly what the same call
would have made of a new object. -/
theorem C127_second_equal (before : List (Op R)) (hi : (run fresh before).1.init = true) (ps : List (Param R)) (t : Nat) (hp : WFL ps t)
    (hsz : (run fresh before).1.cs.get = .ok t) :
    (step (run fresh before).1 (.init (ps.map some))).1 = (step fresh (.init (ps.map some))).1 ∧
    (step (fresh : Obj R) (.init (ps.map some))).2 = .ok .unit := by
  have hs := synced_run (fresh : Obj R) synced_fresh before
  rw [C127_second before hi ps t hp]
  generalize (run fresh before).1 = o at *
  obtain ⟨cs, i, ms⟩ := o
  obtain ⟨h1, -⟩ := hs
  simp only at hi h1
  subst hi
  obtain ⟨w, n⟩ := cs
  simp only at h1
  subst h1
  simp [ConstSize.get] at hsz
  subst hsz
  simp [step, initVec, cloneLoop_wf ps hp, countTotal_some, hp.total, ConstSize.set, fresh, ConstSize.new, wrap]

/-- **C127 (longer).** If the new members need more than the first size, no chromosome can be encoded or decoded any more: every call with a
range of the size that `GetChromosomeSize` still reports runs past its end (undefined behaviour), every other range is refused. -/
theorem C127_second_longer (before : List (Op R)) (hi : (run fresh before).1.init = true) (ps : List (Param R)) (t s : Nat) (hp : WFL ps t)
    (hsz : (run fresh before).1.cs.get = .ok s) (hlt : s < t) (c : List Bool) :
    let o := (step (run fresh before).1 (.init (ps.map some))).1
    (step o .size).2 = .ok (.nat s) ∧
    (c.length ≠ s → (step o (.setChr c)).2 = .throw "invalid_argument" ∧ (step o (.setFrom c)).2 = .throw "invalid_argument") ∧
    (c.length = s → (∀ x, (step o (.setChr c)).2 ≠ .ok x) ∧ (∀ x, (step o (.setFrom c)).2 ≠ .ok x) ∧
      (Withins ps → (step o (.setChr c)).2 = .ub) ∧ (IntsFits ps → (step o (.setFrom c)).2 = .ub)) := by
  intro o
  have ho : o = ⟨(run fresh before).1.cs, true, ps.map some⟩ := by simp only [o, C127_second before hi ps t hp]
  have hs := (synced_run (fresh : Obj R) synced_fresh before).1
  rw [hi] at hs
  generalize (run fresh before).1.cs = cs at *
  obtain ⟨w, n⟩ := cs
  simp only at hs
  subst hs
  simp only [ConstSize.get, if_true, Res.ok.injEq] at hsz
  subst hsz
  clear_value o
  subst ho
  refine ⟨by simp [step, ConstSize.get, wrap], fun hc => ?_, fun hc => ⟨fun x e => ?_, fun x e => ?_, fun hw => ?_, fun hf => ?_⟩⟩
  · simp [step, setChromosome, setFromChromosome, ConstSize.check, hc, wrap]
  · simp only [step, setChromosome, ConstSize.check, hc, if_true, ne_eq, not_true, if_false, Res.ok_bind] at e
    cases h : encLoop (ps.map some) c with
    | ok out => exact encLoop_short ps hp [] c (by omega) out (by simpa using h)
    | throw w => rw [h] at e; simp [wrap] at e
    | ub => rw [h] at e; simp [wrap] at e
  · simp only [step, setFromChromosome, ConstSize.check, hc, if_true, ne_eq, not_true, if_false] at e
    have := decLoop_short ps hp [] c (by omega)
    rw [List.append_nil] at this
    cases h : (decLoop (ps.map some) c).2 with
    | ok u => exact this h
    | throw w => rw [h] at e; simp [wrap] at e
    | ub => rw [h] at e; simp [wrap] at e
  · simp [step, setChromosome, ConstSize.check, hc, encLoop_short_ub ps hp hw c (by omega), wrap]
  · simp [step, setFromChromosome, ConstSize.check, hc, decLoop_short_ub ps hp hf c (by omega), wrap]

/-- **C127 (shorter).** If the new members need less than the first size, the object still wants ranges of the first size, uses their beginning
only and leaves the rest as it was; but its clones have the new size. -/
theorem C127_second_shorter (before : List (Op R)) (hi : (run fresh before).1.init = true) (ps : List (Param R)) (t s : Nat) (hp : WFL ps t)
    (hsz : (run fresh before).1.cs.get = .ok s) (hlt : t ≤ s) (c : List Bool) (hc : c.length = s) :
    let o := (step (run fresh before).1 (.init (ps.map some))).1
    (step o .size).2 = .ok (.nat s) ∧
    (Withins ps → ∃ out, out.length = t ∧ (Param.comp ⟨true, t⟩ true ps).setChromosome (c.take t) = .ok out ∧
      (step o (.setChr c)).2 = .ok (.bits (out ++ c.drop t))) ∧
    (∃ qs, (step o (.setFrom c)).1.members = qs.map some ∧
      (Param.comp ⟨true, t⟩ true ps).setFromChromosome (c.take t) =
        (.comp ⟨true, t⟩ true qs, (setFromChromosome o c).2)) ∧
    ∃ k, (step o .clone).2 = .ok (.obj k) ∧ (step k .size).2 = .ok (.nat t) := by
  intro o
  have ho : o = ⟨(run fresh before).1.cs, true, ps.map some⟩ := by simp only [o, C127_second before hi ps t hp]
  have hs := (synced_run (fresh : Obj R) synced_fresh before).1
  rw [hi] at hs
  generalize (run fresh before).1.cs = cs at *
  obtain ⟨w, n⟩ := cs
  simp only at hs
  subst hs
  simp only [ConstSize.get, if_true, Res.ok.injEq] at hsz
  subst hsz
  clear_value o
  subst ho
  refine ⟨by simp [step, ConstSize.get, wrap], fun hw => ?_, ?_, ⟨⟨true, t⟩, true, ps.map some⟩, ?_, ?_⟩
  · obtain ⟨out, l, e1, e2⟩ := encLoop_long ps hp hw c (by omega)
    refine ⟨out, l, ?_, ?_⟩
    · have hm : min t c.length = t := by omega
      simp [Param.setChromosome, ConstSize.check, ← encLoop_some, e1, hm]
    · simp [step, setChromosome, ConstSize.check, hc, e2, wrap]
  · refine ⟨(decAll ps (c.take t)).1, ?_, ?_⟩
    · simp [step, setFromChromosome, ConstSize.check, hc, decLoop_take ps hp c (by omega), decLoop_some]
    · have hm : min t c.length = t := by omega
      simp [Param.setFromChromosome, setFromChromosome, ConstSize.check, hc, decLoop_take ps hp c (by omega), decLoop_some, hlt]
  · simp [step, clone, initVec, cloneLoop_wf ps hp, countTotal_some, hp.total, ConstSize.set, fresh, ConstSize.new, wrap]
  · simp [step, ConstSize.get, wrap]

/-- **C127 (stopped).** If cloning one of the parameters throws, the exception comes out of `Initialize`, initialised or not; the copies made so far
are the first members, the others are null pointers, and the size and the flag stay.  When the object had been initialised before, that can be
seen: the number of parameters is the new one, `GetParameter` hands out null pointers, no chromosome can be encoded or decoded, the constraints are
never satisfied, and `Clone` – and `CheckConstraints`, when the copied members satisfy theirs – dereference a null pointer. -/
theorem C127_second_stopped (before : List (Op R)) (ps : List (Param R)) (t : Nat) (hp : WFL ps t) (p : Param R) (w : String)
    (hw : p.clone = .throw w) (post : List (Option (Param R))) :
    let x := step (run fresh before).1 (.init (ps.map some ++ some p :: post))
    x = (⟨(run fresh before).1.cs, (run fresh before).1.init, ps.map some ++ List.replicate (post.length + 1) none⟩, .throw w) ∧
    (x.1.init = true →
      (step x.1 .number).2 = .ok (.nat (ps.length + 1 + post.length)) ∧
      (∀ i, ps.length ≤ i → i < ps.length + 1 + post.length → i + 1 < 2 ^ 64 → (step x.1 (.get i)).2 = .ok (.ptr none)) ∧
      (∀ c v, (step x.1 (.setChr c)).2 ≠ .ok v) ∧ (∀ c v, (step x.1 (.setFrom c)).2 ≠ .ok v) ∧
      (step x.1 .check).2 ≠ .ok (.bool true) ∧ (Withins ps → (step x.1 .check).2 = .ub) ∧
      (step x.1 .clone).2 = .ub) := by
  intro x
  have hx : x = (⟨(run fresh before).1.cs, (run fresh before).1.init, ps.map some ++ List.replicate (post.length + 1) none⟩, .throw w) := by
    simp only [x, step, initVec, cloneLoop_stop ps hp p w hw post, wrap]
  refine ⟨hx, ?_⟩
  clear_value x
  subst hx
  simp only
  intro hi
  rw [hi]
  generalize (run fresh before).1.cs = cs
  have hn : (none : Option (Param R)) ∈ ps.map some ++ List.replicate (post.length + 1) none := by simp
  have hr : List.replicate (post.length + 1) (none : Option (Param R)) = none :: List.replicate post.length none := rfl
  refine ⟨?_, fun i h1 h2 h3 => ?_, fun c v e => ?_, fun c v e => ?_, fun e => ?_, fun hW => ?_, ?_⟩
  · simp [step, numberOfParameters, wrap]; omega
  · simp only [step, getParameter, if_true]
    rw [Nat.mod_eq_of_lt h3, if_neg (by simp; omega), List.getElem?_append_right (by simpa using h1)]
    simp only [List.length_map]
    rw [List.getElem?_replicate, if_pos (by omega)]
    rfl
  · simp only [step, setChromosome, if_true] at e
    cases h : (do cs.check c.length; encLoop (ps.map some ++ List.replicate (post.length + 1) none) c : Res (List Bool)) with
    | ok out =>
      obtain ⟨u, _, h⟩ := Res.bind_eq_ok.1 h
      exact encLoop_null _ hn c out h
    | throw w => rw [h] at e; simp [wrap] at e
    | ub => rw [h] at e; simp [wrap] at e
  · simp only [step, setFromChromosome, if_true] at e
    cases hc : cs.check c.length with
    | throw w => rw [hc] at e; simp [wrap] at e
    | ub => rw [hc] at e; simp [wrap] at e
    | ok u =>
      rw [hc] at e
      have := decLoop_null _ hn c
      simp only at e
      cases h : (decLoop (ps.map some ++ List.replicate (post.length + 1) none) c).2 with
      | ok u => exact this h
      | throw w => rw [h] at e; simp [wrap] at e
      | ub => rw [h] at e; simp [wrap] at e
  · have := checkLoop_null _ hn
    simp only [step, checkConstraints, if_true] at e
    cases h : checkLoop (ps.map some ++ List.replicate (post.length + 1) none) with
    | ok b => rw [h] at e; simp [wrap] at e; exact this (by rw [h, e])
    | throw w => rw [h] at e; simp [wrap] at e
    | ub => rw [h] at e; simp [wrap] at e
  · simp only [step, checkConstraints, if_true]
    rw [hr, checkLoop_null_ub ps hp hW]
    rfl
  · simp only [step, clone, if_true, initVec]
    have := cloneLoop_null ps hp (List.replicate post.length none)
    rw [← hr] at this
    rcases hl : cloneLoop (ps.map some ++ List.replicate (post.length + 1) none) with ⟨a, b⟩
    rw [hl] at this
    simp only at this
    subst this
    rfl

/-! ### pointers to members -/

/-- **C127 (pointers).** `GetParameter` hands out the member itself: after its state was changed through the pointer, the composite has that member
with the new state, and nothing else about it has changed; constraints and chromosomes are those of the changed list of members. -/
theorem C127_edit (ms : List (Param R)) (s : Nat) (i : Nat) (q : Param R) (hlen : ms.length < 2 ^ 64) (hi : i < ms.length) :
    step ⟨⟨true, s⟩, true, ms.map some⟩ (.edit i q) = (⟨⟨true, s⟩, true, (ms.set i q).map some⟩, .ok .unit) ∧
    (step (step ⟨⟨true, s⟩, true, ms.map some⟩ (.edit i q)).1 (.get i)).2 = .ok (.ptr (some q)) ∧
    ∀ j, j ≠ i → (step (step ⟨⟨true, s⟩, true, ms.map some⟩ (.edit i q)).1 (.get j)).2 =
      (step ⟨⟨true, s⟩, true, ms.map some⟩ (.get j)).2 := by
  have h1 : (i + 1) % 2 ^ 64 = i + 1 ∨ (i + 1) % 2 ^ 64 = 0 := by omega
  have e1 : step ⟨⟨true, s⟩, true, ms.map some⟩ (.edit i q) = (⟨⟨true, s⟩, true, (ms.set i q).map some⟩, .ok .unit) := by
    simp only [step, edit, getParameter, if_true, List.length_map]
    rw [if_neg (by omega)]
    have : (ms.map some)[i]? = some (some ms[i]) := by simp [hi]
    simp only [this, wrap, List.map_set]
  refine ⟨e1, ?_, fun j hj => ?_⟩
  · rw [e1]
    simp only [step, getParameter, if_true, List.length_map, List.length_set]
    rw [if_neg (by omega)]
    have : ((ms.set i q).map some)[i]? = some (some q) := by simp [hi]
    simp only [this, wrap]
  · rw [e1]
    simp only [step, getParameter, if_true, List.length_map, List.length_set]
    have : ((ms.set i q).map some)[j]? = (ms.map some)[j]? := by
      simp [Ne.symm hj]
    rw [this]

end K52.CompObj
