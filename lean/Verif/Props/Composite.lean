import Verif.Props.ArrParam

/-!
# Properties C13–C15 (value part) for `CompositeDiscreteParameters`

Trees of parameters: leaves are `IntParameter`, `DoubleParameter`, `DoubleParametersArray`; inner nodes are
composites, nested to any depth.
-/

set_option linter.unusedSectionVars false

namespace K52.Param
variable {R : Type} [Field R] [LinearOrder R] [IsStrictOrderedRing R] [FloorRing R]

mutual
/-- A parameter object in the condition constructors and successful mutators leave it in, with chromosome size `s`.
(`wf_int`, `wf_dbl`, `wf_arr`, `C13_initialize`, and `wf_setFrom` in Lemmas/Composite.lean, show that those calls establish and keep it.) -/
def WFP : Param R → Nat → Prop
  | .int p, s => p.cs = ⟨true, s⟩ ∧ IntParam.countChromosomeSize p.min p.max = .ok s ∧ IsInt p.min
  | .dbl p, s => ∃ n, DblParam.WF p s n
  | .arr a, s => ∃ s1 n, ArrParam.WF a s1 n ∧ s = s1 * a.values.length
  | .comp cs init ms, s => cs = ⟨true, s⟩ ∧ init = true ∧ WFL ms s
/-- The same for the members of a composite: sizes add up. -/
def WFL : List (Param R) → Nat → Prop
  | [], s => s = 0
  | m :: ms, s => ∃ s1 s2, s = s1 + s2 ∧ WFP m s1 ∧ WFL ms s2
end

mutual
/-- Same class, bounds, precision, lengths, and members of the same shape. -/
def SameShape : Param R → Param R → Prop
  | .int p, .int q => p.min = q.min ∧ p.max = q.max
  | .dbl p, .dbl q => p.min = q.min ∧ p.max = q.max ∧ p.prec = q.prec
  | .arr p, .arr q => p.sample.min = q.sample.min ∧ p.sample.max = q.sample.max ∧ p.sample.prec = q.sample.prec ∧
      p.values.length = q.values.length
  | .comp _ _ ms, .comp _ _ qs => SameShapes ms qs
  | _, _ => False
def SameShapes : List (Param R) → List (Param R) → Prop
  | [], [] => True
  | m :: ms, q :: qs => SameShape m q ∧ SameShapes ms qs
  | _, _ => False
end

mutual
/-- Every leaf holds a value strictly inside its range (`min ≤ v < max`; an int may also be `max` when the range is not a
power of two). -/
def InRange : Param R → Prop
  | .int p => IsInt p.value ∧ p.min ≤ p.value ∧ p.value ≤ p.max ∧ ¬ (p.value = p.max ∧ PowerOfTwo (p.max - p.min))
  | .dbl p => ∃ v, p.getValue = .ok v ∧ p.min ≤ v ∧ v < p.max
  | .arr a => ∀ v ∈ a.values, a.sample.min ≤ v ∧ v < a.sample.max
  | .comp _ _ ms => InRanges ms
def InRanges : List (Param R) → Prop
  | [] => True
  | m :: ms => InRange m ∧ InRanges ms
end

mutual
/-- `r` holds the values of `p`: exactly for ints and doubles, rounded down by less than one precision in arrays. -/
def Restored : Param R → Param R → Prop
  | .int p, .int r => r.value = p.value ∧ r.min = p.min ∧ r.max = p.max
  | .dbl p, .dbl r => r.getValue = p.getValue ∧ r.min = p.min ∧ r.max = p.max ∧ r.prec = p.prec
  | .arr p, .arr r => List.Forall₂ (fun v g => g ≤ v ∧ v < g + p.sample.prec) p.values r.values
  | .comp _ _ ms, .comp _ _ rs => RestoredL ms rs
  | _, _ => False
def RestoredL : List (Param R) → List (Param R) → Prop
  | [], [] => True
  | m :: ms, r :: rs => Restored m r ∧ RestoredL ms rs
  | _, _ => False
end

/-! ### constructors establish `WFP` -/

theorem wf_int {v min max : Int} {p : IntParam} (hmin : IsInt min) (h : IntParam.new v min max = .ok p) :
    ∃ s, WFP (R := R) (.int p) s := by
  obtain ⟨s, hs, rfl⟩ := IntParam.new_eq_ok h
  exact ⟨s, by simpa [WFP] using ⟨hs, hmin⟩⟩

theorem wf_dbl {min max dp : R} {p : DblParam R} (h : DblParam.Reach min max dp p) : ∃ s, WFP (.dbl p) s := by
  obtain ⟨s, n, w, _⟩ := h.wf
  exact ⟨s, by simpa [WFP] using ⟨n, w⟩⟩

theorem wf_arr {min max dp : R} {k : Nat} {a : ArrParam R} (h : ArrParam.Reach min max dp k a) : ∃ s, WFP (.arr a) s := by
  obtain ⟨s, n, w, _⟩ := h.wf
  exact ⟨_, by simpa [WFP] using ⟨s, ⟨n, w⟩, rfl⟩⟩

theorem WFP.size {p : Param R} {s : Nat} (h : WFP p s) : p.chromosomeSize = .ok s := by
  cases p with
  | int p => simp only [WFP] at h; simp [chromosomeSize, h.1, ConstSize.get]
  | dbl p => simp only [WFP] at h; obtain ⟨n, w⟩ := h; simp [chromosomeSize, w.cs, ConstSize.get]
  | arr a =>
    simp only [WFP] at h; obtain ⟨s1, n, w, rfl⟩ := h
    simp [chromosomeSize, w.cs, ConstSize.get]
  | comp cs init ms => simp only [WFP] at h; simp [chromosomeSize, h.1, ConstSize.get]

theorem WFL.total {ms : List (Param R)} {s : Nat} (h : WFL ms s) : totalSize ms = .ok s := by
  induction ms generalizing s with
  | nil => simp only [WFL] at h; subst h; rfl
  | cons m ms ih =>
    simp only [WFL] at h
    obtain ⟨s1, s2, rfl, h1, h2⟩ := h
    simp [totalSize, h1.size, ih h2]

theorem two_pow_inj {s t : Nat} (h : (2 : R) ^ s = 2 ^ t) : s = t := by
  have h' : ((2 ^ s : Nat) : R) = ((2 ^ t : Nat) : R) := by push_cast; exact h
  have h2 : (2 : Nat) ^ s = 2 ^ t := Nat.cast_injective h'
  exact Nat.pow_right_injective (le_refl 2) h2

theorem dbl_same_size {p q : DblParam R} {s t : Nat} {n m : Int} (hp : DblParam.WF p s n) (hq : DblParam.WF q t m)
    (h1 : p.min = q.min) (h2 : p.max = q.max) (h3 : p.prec = q.prec) : s = t := by
  have e1 := hp.max_eq
  have e2 := hq.max_eq
  rw [h1, h2, h3] at e1
  have hpos := hq.prec_pos
  have : (2 : R) ^ s * q.prec = 2 ^ t * q.prec := by linarith
  exact two_pow_inj (mul_right_cancel₀ hpos.ne' this)

/-! ### the round trip -/

mutual
theorem roundtrip_aux : ∀ (p q : Param R) (s t : Nat), WFP p s → WFP q t → SameShape p q → InRange p →
    ∀ chr : List Bool, chr.length = s → s = t ∧
    ∃ out, p.setChromosome chr = .ok out ∧ out.length = s ∧
      (q.setFromChromosome out).2 = .ok () ∧ Restored p (q.setFromChromosome out).1
  | .int p, q, s, t, hp, hq, hsh, hr, chr, hl => by
    cases q with
    | int q =>
      simp only [WFP] at hp hq
      simp only [SameShape] at hsh
      simp only [InRange] at hr
      obtain ⟨hp1, hp2, hp3⟩ := hp
      obtain ⟨hq1, hq2, hq3⟩ := hq
      have hst : s = t := by
        rw [hsh.1, hsh.2, hq2] at hp2; simpa using hp2.symm
      subst hst
      refine ⟨rfl, ?_⟩
      obtain ⟨c1, c2, c3, c4, c5⟩ := IntParam.count_eq_ok hp2
      obtain ⟨out, e, ho1, ho2⟩ := IntParam.setChromosome_spec hp1 c3
        (by norm_num at c2; omega) chr hl
      classical
      have hmod := IntParam.emod_of_range (d := p.value - p.min) (m := p.max - p.min) (s := s)
        (by omega) (by omega) c4 c5
      rw [if_neg (by
        rintro ⟨h1, h2⟩
        exact hr.2.2.2 ⟨by omega, h2⟩)] at hmod
      rw [hmod] at ho2
      have hset := IntParam.setFrom_spec hq1 c3 out ho1 (by
        rw [ho2, ← hsh.1]
        have := hr.1
        unfold IsInt at this; omega)
      refine ⟨out, e, ho1, ?_, ?_⟩
      · simp only [setFromChromosome]; rw [hset]
      · simp only [setFromChromosome]
        rw [hset]
        simp only [Restored]
        refine ⟨by rw [ho2, hsh.1]; omega, hsh.1.symm, hsh.2.symm⟩
    | dbl q => simp [SameShape] at hsh
    | arr q => simp [SameShape] at hsh
    | comp cs init ms => simp [SameShape] at hsh
  | .dbl p, q, s, t, hp, hq, hsh, hr, chr, hl => by
    cases q with
    | dbl q =>
      simp only [WFP] at hp hq
      simp only [SameShape] at hsh
      simp only [InRange] at hr
      obtain ⟨n, wp⟩ := hp
      obtain ⟨m, wq⟩ := hq
      have hst := dbl_same_size wp wq hsh.1 hsh.2.1 hsh.2.2
      subst hst
      refine ⟨rfl, ?_⟩
      obtain ⟨v, ev, hv1, hv2⟩ := hr
      rw [wp.getValue] at ev
      simp at ev
      have hi := wp.index_range hv1 hv2.le
      have hidx : DblParam.index p v = n := by rw [← ev]; exact wp.index_grid n
      have hlt := hi.2.2.1 hv2
      rw [hidx] at hi hlt
      have h30 := DblParam.pow_le_30 wp.small
      obtain ⟨out, e, ho1, ho2⟩ := wp.setChromosome (by omega) chr hl
      rw [Int.emod_eq_of_lt hi.1 hlt] at ho2
      obtain ⟨ed, wd⟩ := wq.setFrom out ho1
      refine ⟨out, e, ho1, ?_, ?_⟩
      · simp only [setFromChromosome]; rw [ed]
      · simp only [setFromChromosome]
        rw [ed]
        simp only [Restored]
        refine ⟨?_, hsh.1.symm, hsh.2.1.symm, hsh.2.2.symm⟩
        rw [wd.getValue, wp.getValue, ho2, hsh.1, hsh.2.2]
    | int q => simp [SameShape] at hsh
    | arr q => simp [SameShape] at hsh
    | comp cs init ms => simp [SameShape] at hsh
  | .arr p, q, s, t, hp, hq, hsh, hr, chr, hl => by
    cases q with
    | arr q =>
      simp only [WFP] at hp hq
      simp only [SameShape] at hsh
      simp only [InRange] at hr
      obtain ⟨s1, n, wp, rfl⟩ := hp
      obtain ⟨s2, m, wq, rfl⟩ := hq
      have hst := dbl_same_size wp.sample wq.sample hsh.1 hsh.2.1 hsh.2.2.1
      subst hst
      refine ⟨by rw [hsh.2.2.2], ?_⟩
      have hfits : ∀ v ∈ p.values, ArrParam.Fits p.sample v := fun v h =>
        ArrParam.fits_of_range wp.sample (hr v h).1 (hr v h).2.le
      obtain ⟨outs, eo, hf⟩ := wp.setChromosome hfits chr hl
      have hol : ∀ o ∈ outs, o.length = s1 := by
        intro o ho
        obtain ⟨i, hi, rfl⟩ := List.mem_iff_getElem.1 ho
        have := (List.forall₂_iff_get.1 hf).2 i (by rw [hf.length_eq]; exact hi) hi
        exact this.1
      have hdec := wq.setFrom outs (by rw [← hf.length_eq, hsh.2.2.2]) hol
      refine ⟨outs.flatten, eo, ?_, ?_, ?_⟩
      · rw [List.length_flatten, hf.length_eq]
        have : outs.map List.length = outs.map (fun _ => s1) := List.map_congr_left hol
        rw [this]; simp [mul_comm]
      · simp only [setFromChromosome]; rw [hdec]
      · simp only [setFromChromosome]
        rw [hdec]
        simp only [Restored]
        rw [List.forall₂_map_right_iff]
        refine List.Forall₂.imp ?_ (List.forall₂_and_left (p := fun v => p.sample.min ≤ v ∧ v < p.sample.max) _ _ |>.2 ⟨hr, hf⟩)
        rintro v o ⟨⟨h1, h2⟩, h3, h4⟩
        have hrg := wp.sample.index_range h1 h2.le
        have hlt := hrg.2.2.1 h2
        rw [Int.emod_eq_of_lt hrg.1 hlt] at h4
        have hc : ((bitsVal o : Nat) : R) = (DblParam.index p.sample v : R) := by
          have : ((bitsVal o : Int) : R) = (DblParam.index p.sample v : R) := by rw [h4]
          simpa using this
        rw [hc, ← hsh.2.2.1, ← hsh.1]
        exact ⟨hrg.2.2.2.1, hrg.2.2.2.2⟩
    | int q => simp [SameShape] at hsh
    | dbl q => simp [SameShape] at hsh
    | comp cs init ms => simp [SameShape] at hsh
  | .comp cs init ms, q, s, t, hp, hq, hsh, hr, chr, hl => by
    cases q with
    | comp cs' init' qs =>
      simp only [WFP] at hp hq
      simp only [SameShape] at hsh
      simp only [InRange] at hr
      obtain ⟨hp1, hp2, hp3⟩ := hp
      obtain ⟨hq1, hq2, hq3⟩ := hq
      obtain ⟨hst, out, e, ho1, ho2, ho3⟩ := roundtripL_aux ms qs s t hp3 hq3 hsh hr chr hl
      subst hst
      refine ⟨rfl, out, ?_, ho1, ?_, ?_⟩
      · simp only [setChromosome]
        rw [if_pos hp2, IntParam.check_ok.2 (by simp [hp1, hl])]
        exact e
      · simp only [setFromChromosome]
        rw [if_pos hq2, IntParam.check_ok.2 (by simp [hq1, ho1])]
        exact ho2
      · simp only [setFromChromosome]
        rw [if_pos hq2, IntParam.check_ok.2 (by simp [hq1, ho1])]
        simpa only [Restored] using ho3
    | int q => simp [SameShape] at hsh
    | dbl q => simp [SameShape] at hsh
    | arr q => simp [SameShape] at hsh
theorem roundtripL_aux : ∀ (ms qs : List (Param R)) (s t : Nat), WFL ms s → WFL qs t → SameShapes ms qs → InRanges ms →
    ∀ chr : List Bool, chr.length = s → s = t ∧
    ∃ out, encAll ms chr = .ok out ∧ out.length = s ∧
      (decAll qs out).2 = .ok () ∧ RestoredL ms (decAll qs out).1
  | [], qs, s, t, hp, hq, hsh, hr, chr, hl => by
    cases qs with
    | nil =>
      simp only [WFL] at hp hq
      subst hp; subst hq
      have : chr = [] := by simpa using hl
      subst this
      exact ⟨rfl, [], by simp [encAll], rfl, by simp [decAll], by simp [decAll, RestoredL]⟩
    | cons q qs => simp [SameShapes] at hsh
  | m :: ms, qs, s, t, hp, hq, hsh, hr, chr, hl => by
    cases qs with
    | nil => simp [SameShapes] at hsh
    | cons q qs =>
      simp only [WFL] at hp hq
      simp only [SameShapes] at hsh
      simp only [InRanges] at hr
      obtain ⟨s1, s2, rfl, hp1, hp2⟩ := hp
      obtain ⟨t1, t2, rfl, hq1, hq2⟩ := hq
      obtain ⟨hst1, o1, e1, l1, d1, r1⟩ := roundtrip_aux m q s1 t1 hp1 hq1 hsh.1 hr.1 (chr.take s1) (by simp; omega)
      obtain ⟨hst2, o2, e2, l2, d2, r2⟩ := roundtripL_aux ms qs s2 t2 hp2 hq2 hsh.2 hr.2 (chr.drop s1) (by simp; omega)
      subst hst1; subst hst2
      refine ⟨rfl, o1 ++ o2, ?_, by simp [l1, l2], ?_⟩
      · simp only [encAll, hp1.size, Res.ok_bind, ArrParam.slice_ok (show s1 ≤ chr.length by omega), e1, e2, Res.pure_eq]
      · have hsl := ArrParam.slice_append o1 o2 s1 l1
        have hd : q.setFromChromosome o1 = ((q.setFromChromosome o1).1, .ok ()) := by rw [← d1]
        have heq : decAll (q :: qs) (o1 ++ o2) =
            ((q.setFromChromosome o1).1 :: (decAll qs o2).1, (decAll qs o2).2) := by
          rw [decAll]
          simp only [hq1.size, hsl]
          rw [hd]
        rw [heq]
        exact ⟨d2, by simp only [RestoredL]; exact ⟨r1, r2⟩⟩
end

/-- **C13 (round trip of nested composites).** For every tree of parameters, to any depth: if every leaf holds an in-range
value, then encoding into any chromosome of the declared size succeeds, keeps the size, and decoding the
chromosome with any tree of the same shape restores all leaf values. -/
theorem C13_tree_roundtrip (p q : Param R) (s t : Nat) (hp : WFP p s) (hq : WFP q t) (hshape : SameShape p q)
    (hin : InRange p) (chr : List Bool) (hl : p.chromosomeSize = .ok chr.length) :
    ∃ out, p.setChromosome chr = .ok out ∧ out.length = chr.length ∧
      (q.setFromChromosome out).2 = .ok () ∧ Restored p (q.setFromChromosome out).1 := by
  have hs : chr.length = s := by rw [hp.size] at hl; simpa using hl.symm
  obtain ⟨_, out, h1, h2, h3⟩ := roundtrip_aux p q s t hp hq hshape hin chr hs
  exact ⟨out, h1, by omega, h3⟩

/-! ### slices -/

/-- Members and chromosome pieces of matching sizes. -/
def Pieces (ms : List (Param R)) (cs : List (List Bool)) : Prop :=
  List.Forall₂ (fun m c => m.chromosomeSize = .ok c.length) ms cs

theorem decAll_pieces (ms : List (Param R)) (cs : List (List Bool)) (h : Pieces ms cs)
    (hok : List.Forall₂ (fun m c => (m.setFromChromosome c).2 = .ok ()) ms cs) :
    decAll ms cs.flatten = (List.zipWith (fun m c => (m.setFromChromosome c).1) ms cs, .ok ()) := by
  induction ms generalizing cs with
  | nil => cases h; simp [decAll]
  | cons m ms ih =>
    cases h with
    | cons h1 h2 =>
      rename_i c cs
      cases hok with
      | cons k1 k2 =>
        have hd : m.setFromChromosome c = ((m.setFromChromosome c).1, .ok ()) := by rw [← k1]
        rw [decAll]
        simp only [h1, List.flatten_cons, ArrParam.slice_append c cs.flatten c.length rfl, ih cs h2 k2]
        rw [hd]; rfl

theorem encAll_pieces (ms : List (Param R)) (cs outs : List (List Bool)) (h : Pieces ms cs)
    (hok : List.Forall₂ (fun (m : Param R) co => m.setChromosome co.1 = .ok co.2) ms (cs.zip outs))
    (hlen : cs.length = outs.length) :
    encAll ms cs.flatten = .ok outs.flatten := by
  induction ms generalizing cs outs with
  | nil =>
    cases h
    have : outs = [] := by simpa using hlen.symm
    subst this; simp [encAll]
  | cons m ms ih =>
    cases h with
    | cons h1 h2 =>
      rename_i c cs
      cases outs with
      | nil => simp at hlen
      | cons o outs =>
        simp only [List.zip_cons_cons] at hok
        cases hok with
        | cons k1 k2 =>
          rw [encAll]
          simp only [h1, Res.ok_bind, List.flatten_cons, ArrParam.slice_append c cs.flatten c.length rfl]
          simp only at k1
          rw [k1, Res.ok_bind, ih cs outs h2 k2 (by simpa using hlen)]
          rfl

theorem WFL.pieces_length {ms : List (Param R)} {s : Nat} (h : WFL ms s) {cs : List (List Bool)} (hp : Pieces ms cs) :
    cs.flatten.length = s := by
  induction ms generalizing s cs with
  | nil => cases hp; simp only [WFL] at h; subst h; rfl
  | cons m ms ih =>
    cases hp with
    | cons h1 h2 =>
      simp only [WFL] at h
      obtain ⟨s1, s2, rfl, w1, w2⟩ := h
      rw [w1.size] at h1
      simp at h1
      simp [ih w2 h2, h1]

/-- **C13 (slices).** Cut the chromosome of a composite into consecutive pieces of the members' sizes: `SetFromChromosome`
gives each member exactly its own piece, and `SetChromosome` writes exactly the members' own encodings, in order. -/
theorem C13_slices (cs : ConstSize) (init : Bool) (ms : List (Param R)) (s : Nat) (h : WFP (.comp cs init ms) s)
    (pieces : List (List Bool)) (hp : Pieces ms pieces) :
    (List.Forall₂ (fun m c => (m.setFromChromosome c).2 = .ok ()) ms pieces →
      (Param.comp cs init ms).setFromChromosome pieces.flatten =
        (.comp cs init (List.zipWith (fun m c => (m.setFromChromosome c).1) ms pieces), .ok ())) ∧
    (∀ outs : List (List Bool), outs.length = pieces.length →
      List.Forall₂ (fun (m : Param R) co => m.setChromosome co.1 = .ok co.2) ms (pieces.zip outs) →
      (Param.comp cs init ms).setChromosome pieces.flatten = .ok outs.flatten) := by
  simp only [WFP] at h
  obtain ⟨h1, h2, h3⟩ := h
  have hl := h3.pieces_length hp
  have hc : cs.check pieces.flatten.length = .ok () := IntParam.check_ok.2 (by rw [h1, hl]; simp)
  constructor
  · intro hok
    simp only [setFromChromosome]
    rw [if_pos h2, hc]
    simp only [decAll_pieces ms pieces hp hok]
  · intro outs hlen hok
    simp only [setChromosome]
    rw [if_pos h2, hc]
    exact encAll_pieces ms pieces outs hp hok hlen.symm

/-! ### cloning (value level) and initialisation -/

theorem clone_int {p : IntParam} {s : Nat} (h : p.cs = ⟨true, s⟩) (hc : IntParam.countChromosomeSize p.min p.max = .ok s) :
    p.clone = .ok p := by
  unfold IntParam.clone
  rw [IntParam.new_of_count _ hc]
  cases p; simp_all

theorem clone_dbl {p : DblParam R} {s : Nat} {n : Int} (h : DblParam.WF p s n) : p.clone = .ok p := by
  unfold DblParam.clone
  have hb := h.base
  rw [hb]
  simp only
  rw [clone_int (p := ⟨⟨true, s⟩, n, 0, 2 ^ s⟩) rfl (DblParam.count_pow s h.small)]
  cases p; simp_all

theorem clone_arr {a : ArrParam R} {s : Nat} {n : Int} (h : ArrParam.WF a s n) : a.clone = .ok a := by
  unfold ArrParam.clone
  rw [clone_dbl h.sample, Res.ok_bind, h.sample.cs]
  have hcs := h.cs
  cases a
  simp_all [ConstSize.get, ConstSize.set, ConstSize.new]

mutual
theorem clone_aux : ∀ (p : Param R) (s : Nat), WFP p s → p.clone = .ok p
  | .int p, s, h => by
    simp only [WFP] at h
    simp only [clone, clone_int h.1 h.2.1, Res.ok_bind, Res.pure_eq]
  | .dbl p, s, h => by
    simp only [WFP] at h
    obtain ⟨n, w⟩ := h
    simp only [clone, clone_dbl w, Res.ok_bind, Res.pure_eq]
  | .arr a, s, h => by
    simp only [WFP] at h
    obtain ⟨s1, n, w, _⟩ := h
    simp only [clone, clone_arr w, Res.ok_bind, Res.pure_eq]
  | .comp cs init ms, s, h => by
    simp only [WFP] at h
    obtain ⟨h1, h2, h3⟩ := h
    simp only [clone]
    rw [if_pos h2, cloneAll_aux ms s h3, Res.ok_bind]
    simp [initWith, h3.total, ConstSize.set, ConstSize.new, h1, h2]
theorem cloneAll_aux : ∀ (ms : List (Param R)) (s : Nat), WFL ms s → cloneAll ms = .ok ms
  | [], s, _ => by simp [cloneAll]
  | m :: ms, s, h => by
    simp only [WFL] at h
    obtain ⟨s1, s2, rfl, h1, h2⟩ := h
    simp only [cloneAll, clone_aux m s1 h1, cloneAll_aux ms s2 h2, Res.ok_bind, Res.pure_eq]
end

/-- **C15 (equality).** Cloning any well-formed parameter tree succeeds and yields an object with exactly the same bounds,
precision, sizes and values at every leaf. -/
theorem C15_clone_equal (p : Param R) (s : Nat) (h : WFP p s) : p.clone = .ok p := clone_aux p s h

/-- **C13 (initialisation).** Initialising a fresh composite with well-formed members succeeds; the size is the sum of the
members' sizes and the result is well-formed; a second initialisation throws. -/
theorem C13_initialize (ms : List (Param R)) (s : Nat) (h : WFL ms s) :
    (emptyComposite : Param R).initMembers ms = (.comp ⟨true, s⟩ true ms, .ok ()) ∧
    WFP (.comp ⟨true, s⟩ true ms) s ∧
    (Param.comp ⟨true, s⟩ true ms).chromosomeSize = .ok s ∧
    totalSize ms = .ok s ∧
    ∀ ns t, WFL ns t → ((Param.comp ⟨true, s⟩ true ms).initMembers ns).2.threw := by
  refine ⟨?_, by simp [WFP, h], rfl, h.total, ?_⟩
  · simp [emptyComposite, initMembers, cloneAll_aux ms s h, initWith, h.total, ConstSize.set, ConstSize.new]
  · intro ns t hn
    simp [initMembers, cloneAll_aux ns t hn, initWith, hn.total, ConstSize.set]

/-- The failed second initialisation is not harmless: the members have been replaced while the size has not, and the object
is no longer well-formed – encoding it then runs past the end of the chromosome (undefined behaviour). -/
theorem C13_reinitialize_corrupts :
    ∃ (p : Param ℚ) (ns : List (Param ℚ)) (chr : List Bool), (∃ s, WFP p s) ∧
      (p.initMembers ns).2.threw ∧ (p.initMembers ns).1.chromosomeSize = .ok chr.length ∧
      (p.initMembers ns).1.setChromosome chr = .ub := by
  have hc1 : IntParam.countChromosomeSize 0 1 = .ok 0 := by
    have := DblParam.count_pow 0 (by norm_num); simpa using this
  have hc2 : IntParam.countChromosomeSize 0 2 = .ok 1 := by
    have := DblParam.count_pow 1 (by norm_num); simpa using this
  have w1 : WFL ([.int ⟨⟨true, 0⟩, 0, 0, 1⟩] : List (Param ℚ)) 0 := by
    simp only [WFL, WFP]; exact ⟨0, 0, rfl, ⟨rfl, hc1, by norm_num [IsInt]⟩, rfl⟩
  have w2 : WFL ([.int ⟨⟨true, 1⟩, 0, 0, 2⟩] : List (Param ℚ)) 1 := by
    simp only [WFL, WFP]; exact ⟨1, 0, rfl, ⟨rfl, hc2, by norm_num [IsInt]⟩, rfl⟩
  have e : (Param.comp ⟨true, 0⟩ true [.int ⟨⟨true, 0⟩, 0, 0, 1⟩] : Param ℚ).initMembers [.int ⟨⟨true, 1⟩, 0, 0, 2⟩] =
      (.comp ⟨true, 0⟩ true [.int ⟨⟨true, 1⟩, 0, 0, 2⟩], .throw "logic_error") := by
    simp [initMembers, cloneAll_aux _ _ w2, initWith, w2.total, ConstSize.set]
  refine ⟨.comp ⟨true, 0⟩ true [.int ⟨⟨true, 0⟩, 0, 0, 1⟩], [.int ⟨⟨true, 1⟩, 0, 0, 2⟩], [],
    ⟨0, by simp [WFP, w1]⟩, ?_, ?_, ?_⟩
  · rw [e]; trivial
  · rw [e]; rfl
  · rw [e]; rfl

/-! ### constraints -/

theorem checkAll_iff (ms : List (Param R)) : checkAll ms = .ok true ↔ ∀ m ∈ ms, m.checkConstraints = .ok true := by
  induction ms with
  | nil => simp [checkAll]
  | cons m ms ih =>
    simp only [checkAll, List.mem_cons, forall_eq_or_imp]
    cases h : m.checkConstraints with
    | ok b => cases b <;> simp [ih]
    | throw w => simp
    | ub => simp

/-- **C14.** A composite satisfies its constraints iff every member satisfies its own; it reports a violation iff some member does
and no earlier member fails otherwise; before initialisation every query throws. -/
theorem C14_constraints (cs : ConstSize) (ms : List (Param R)) :
    ((Param.comp cs true ms).checkConstraints = .ok true ↔ ∀ m ∈ ms, m.checkConstraints = .ok true) ∧
    ((∀ m ∈ ms, ∃ b, m.checkConstraints = .ok b) →
      ((Param.comp cs true ms).checkConstraints = .ok false ↔ ∃ m ∈ ms, m.checkConstraints = .ok false)) ∧
    ((Param.comp cs false ms).checkConstraints.threw ∧
      (∀ chr, ((Param.comp cs false ms).setChromosome chr).threw ∧
        ((Param.comp cs false ms).setFromChromosome chr) = (.comp cs false ms, .throw "logic_error")) ∧
      (Param.comp cs false ms).numberOfParameters.threw ∧
      (∀ i, ((Param.comp cs false ms).getParameter i).threw) ∧ (Param.comp cs false ms).clone.threw) := by
  refine ⟨by simp [checkConstraints, checkAll_iff], ?_, ?_⟩
  · intro hall
    simp only [checkConstraints, if_true]
    induction ms with
    | nil => simp [checkAll]
    | cons m ms ih =>
      obtain ⟨b, hb⟩ := hall m (by simp)
      have ih' := ih (fun m' h' => hall m' (by simp [h']))
      simp only [checkAll, hb, Res.ok_bind, List.mem_cons, exists_eq_or_imp]
      cases b
      · simp
      · simp [ih']
  · refine ⟨by simp [checkConstraints], ?_, by simp [numberOfParameters], by simp [getParameter], by simp [clone]⟩
    intro chr
    exact ⟨by simp [setChromosome], by simp [setFromChromosome]⟩

/-- **C14 (members).** `GetParameter` of an initialised composite returns member `i` for every valid index and throws for every
invalid one up to the largest `size_t` value, where the `index + 1` in the check wraps around (undefined behaviour). -/
theorem C14_getParameter (cs : ConstSize) (ms : List (Param R)) (hlen : ms.length < 2 ^ 64) :
    (∀ i (h : i < ms.length), (Param.comp cs true ms).getParameter i = .ok ms[i]) ∧
    (∀ i, ms.length ≤ i → i < 2 ^ 64 - 1 → ((Param.comp cs true ms).getParameter i).threw) ∧
    (Param.comp cs true ms).getParameter (2 ^ 64 - 1) = .ub := by
  refine ⟨?_, ?_, ?_⟩
  · intro i h
    simp only [getParameter, if_true]
    have : (i + 1) % 2 ^ 64 = i + 1 ∨ (i + 1) % 2 ^ 64 = 0 := by omega
    rw [if_neg (by omega), List.getElem?_eq_getElem h]
  · intro i h h2
    simp only [getParameter, if_true]
    rw [if_pos (by rw [Nat.mod_eq_of_lt (by omega)]; omega)]
    trivial
  · simp only [getParameter, if_true]
    rw [if_neg (by norm_num), List.getElem?_eq_none (by omega)]

/-! ### non-vacuity -/

/-- A nested tree: composite of an int in [0,5] and a composite holding a double in [0,1] and an array of three. -/
theorem exists_tree : ∃ (p : Param ℚ) (s : Nat), WFP p s ∧ InRange p ∧ SameShape p p ∧ s = 3 + (2 + 6) := by
  obtain ⟨d, hd, hd2, hd3⟩ := DblParam.exists_param
  obtain ⟨a, ha, ha2, ha3⟩ := ArrParam.exists_array
  have hr : DblParam.Reach (0 : ℚ) 1 (3/10) d := .new hd
  obtain ⟨s, n, wd, e1, e2, _⟩ := hr.wf
  have hs : s = 2 := by rw [wd.cs] at hd2; simpa [ConstSize.get] using hd2
  subst hs
  obtain ⟨s', n', wa, ra, ka⟩ := ha.wf
  obtain ⟨_, _, wa2, f1, f2, _⟩ := ra.wf
  have hs' : s' * a.values.length = 6 := by rw [wa.cs] at ha2; simpa [ConstSize.get] using ha2
  have hi : IntParam.countChromosomeSize 0 5 = .ok 3 := by
    obtain ⟨s, h, h1, h2, h3⟩ := IntParam.count_ok 0 5 (by norm_num) (by norm_num)
    rw [h]
    have : s = 3 := by
      rcases lt_trichotomy s 3 with h | h | h
      · interval_cases s <;> norm_num at h2
      · exact h
      · have := h3 3 h; norm_num at this
    rw [this]
  refine ⟨.comp ⟨true, 11⟩ true [.int ⟨⟨true, 3⟩, 4, 0, 5⟩, .comp ⟨true, 8⟩ true [.dbl d, .arr a]], 11, ?_, ?_, ?_, rfl⟩
  · simp only [WFP, WFL]
    refine ⟨trivial, trivial, 3, 8, rfl, ⟨rfl, hi, by norm_num [IsInt]⟩, 8, 0, rfl, ⟨rfl, trivial, 2, 6, rfl, ⟨n, wd⟩, 6, 0, rfl,
      ⟨s', n', wa, hs'.symm⟩, rfl⟩, rfl⟩
  · simp only [InRange, InRanges]
    refine ⟨⟨by norm_num [IsInt], by norm_num, by norm_num, by norm_num⟩, ⟨?_, ?_, trivial⟩, trivial⟩
    · have hset : d.getValue = .ok (1/2 : ℚ) := by
        obtain ⟨s, w, g1, g2, _, _⟩ := DblParam.new_eq_ok hd
        have hpr := w.prec
        rw [w.getValue]
        have hidx := w.index_grid 2
        have hv : ((2 : Int) : ℚ) * d.prec + d.min = 1/2 := by rw [hd3, g1]; norm_num
        rw [hv] at hidx
        rw [hidx, hv]
      exact ⟨1/2, hset, by rw [e1]; norm_num, by rw [e2]; norm_num⟩
    · rw [ha3, f1, f2]
      intro v hv; simp at hv
      rcases hv with rfl | rfl | rfl <;> norm_num
  · simp [SameShape, SameShapes]

example : ∃ (p : Param ℚ) (s : Nat) (chr : List Bool), WFP p s ∧ WFP p s ∧ SameShape p p ∧ InRange p ∧
    p.chromosomeSize = .ok chr.length := by
  obtain ⟨p, s, h1, h2, h3, _⟩ := exists_tree
  exact ⟨p, s, List.replicate s false, h1, h1, h3, h2, by rw [h1.size]; simp⟩

end K52.Param
