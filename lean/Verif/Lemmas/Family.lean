import Verif.Lemmas.GA
import Verif.Lemmas.Composite

/-! # The library's own parameter classes form families in the sense of `K52.GA.Family` -/

set_option linter.unusedSectionVars false

namespace K52.Param
variable {R : Type} [Field R] [LinearOrder R] [IsStrictOrderedRing R] [FloorRing R]

mutual
/-- The object with every value set to 0: what is left is everything but the values. -/
def erase : Param R → Param R
  | .int p => .int { p with value := 0 }
  | .dbl p => .dbl { p with base := p.base.map (fun b => { b with value := 0 }) }
  | .arr a => .arr { a with values := List.replicate a.values.length 0 }
  | .comp cs init ms => .comp cs init (eraseL ms)
/-- The same for members. -/
def eraseL : List (Param R) → List (Param R)
  | [] => []
  | m :: ms => erase m :: eraseL ms
end

theorem int_dec_eq {p q r : IntParam} {chr : List Bool} (he : { p with value := 0 } = ({ q with value := 0 } : IntParam))
    (h : p.setFromChromosome chr = (r, .ok ())) : q.setFromChromosome chr = (r, .ok ()) ∧
      ({ r with value := 0 } : IntParam) = { p with value := 0 } := by
  obtain ⟨pc, pv, pmin, pmax⟩ := p
  obtain ⟨qc, qv, qmin, qmax⟩ := q
  simp only [IntParam.mk.injEq, true_and] at he
  obtain ⟨rfl, rfl, rfl⟩ := he
  unfold IntParam.setFromChromosome at *
  simp only at *
  split at h
  · split at h
    · split at h
      · next _ _ _ hv =>
        simp only [Prod.mk.injEq, and_true] at h
        subst h
        rename_i hc _ _ _ _
        simp_all
      all_goals simp at h
    all_goals simp at h
  all_goals simp at h

theorem decLoop_eq (sample : DblParam R) : ∀ (vs ws : List R) (chr : List Bool), vs.length = ws.length →
    (ArrParam.decLoop sample vs chr).2 = .ok () →
    ArrParam.decLoop sample ws chr = ArrParam.decLoop sample vs chr ∧
    (ArrParam.decLoop sample vs chr).1.length = vs.length
  | [], [], chr, _, _ => ⟨rfl, rfl⟩
  | [], _ :: _, chr, hl, _ => by simp at hl
  | _ :: _, [], chr, hl, _ => by simp at hl
  | v :: vs, w :: ws, chr, hl, h => by
    unfold ArrParam.decLoop at *
    split at h
    · next s hs =>
      split at h
      · next cur rest hsl =>
        split at h
        · next p hp =>
          split at h
          · next x hx =>
            obtain ⟨a, b⟩ := decLoop_eq sample vs ws rest (by simpa using hl) h
            simp only [a, hx]
            exact ⟨trivial, by simp [b]⟩
          all_goals simp at h
        all_goals simp at h
      all_goals simp at h
    all_goals simp at h

mutual
theorem dec_eq : ∀ (p q r : Param R) (chr : List Bool), erase p = erase q → p.setFromChromosome chr = (r, .ok ()) →
    q.setFromChromosome chr = (r, .ok ()) ∧ erase r = erase p
  | .int p, .int q, r, chr, he, h => by
    simp only [erase, Param.int.injEq] at he
    simp only [setFromChromosome, Prod.mk.injEq] at h
    obtain ⟨rfl, h⟩ := h
    obtain ⟨a, b⟩ := int_dec_eq (r := (p.setFromChromosome chr).1) he (by rw [← h])
    simp only [setFromChromosome, a, erase, b, and_self]
  | .dbl p, .dbl q, r, chr, he, h => by
    obtain ⟨pc, pb, pmin, pmax, pprec⟩ := p
    obtain ⟨qc, qb, qmin, qmax, qprec⟩ := q
    simp only [erase, Param.dbl.injEq, DblParam.mk.injEq] at he
    obtain ⟨rfl, hb, rfl, rfl, rfl⟩ := he
    simp only [setFromChromosome, Prod.mk.injEq] at h
    obtain ⟨rfl, h⟩ := h
    unfold DblParam.setFromChromosome at h
    simp only at h
    cases pb with
    | none => simp at h
    | some a =>
      cases qb with
      | none => simp at hb
      | some b =>
        simp only [Option.map_some, Option.some.injEq] at hb
        simp only at h
        obtain ⟨x, y⟩ := int_dec_eq (r := (a.setFromChromosome chr).1) hb (by rw [← h])
        simp only [setFromChromosome, DblParam.setFromChromosome, x, erase, Option.map_some, y, and_self]
  | .arr p, .arr q, r, chr, he, h => by
    obtain ⟨pc, ps, pv⟩ := p
    obtain ⟨qc, qs, qv⟩ := q
    simp only [erase, Param.arr.injEq, ArrParam.mk.injEq] at he
    obtain ⟨rfl, rfl, hv⟩ := he
    have hlen : pv.length = qv.length := by simpa using congrArg List.length hv
    simp only [setFromChromosome, Prod.mk.injEq] at h
    obtain ⟨rfl, h⟩ := h
    unfold ArrParam.setFromChromosome at h
    simp only at h
    split at h
    · next hc =>
      obtain ⟨a, b⟩ := decLoop_eq ps pv qv chr hlen h
      simp only [setFromChromosome, ArrParam.setFromChromosome, hc, a, h, erase, b, and_self]
    · simp at h
    · simp at h
  | .comp cs init ms, .comp cs' init' qs, r, chr, he, h => by
    simp only [erase, Param.comp.injEq] at he
    obtain ⟨rfl, rfl, he⟩ := he
    simp only [setFromChromosome] at h
    split at h
    · next hi =>
      split at h
      · next hc =>
        simp only [Prod.mk.injEq] at h
        obtain ⟨rfl, h⟩ := h
        obtain ⟨a, b⟩ := decAll_eq ms qs (decAll ms chr).1 chr he (by rw [← h])
        simp only [setFromChromosome, hi, if_true, hc, a, erase, b, and_self]
      · simp at h
      · simp at h
    · simp at h
  | .int _, .dbl _, _, _, he, _ => by simp [erase] at he
  | .int _, .arr _, _, _, he, _ => by simp [erase] at he
  | .int _, .comp _ _ _, _, _, he, _ => by simp [erase] at he
  | .dbl _, .int _, _, _, he, _ => by simp [erase] at he
  | .dbl _, .arr _, _, _, he, _ => by simp [erase] at he
  | .dbl _, .comp _ _ _, _, _, he, _ => by simp [erase] at he
  | .arr _, .int _, _, _, he, _ => by simp [erase] at he
  | .arr _, .dbl _, _, _, he, _ => by simp [erase] at he
  | .arr _, .comp _ _ _, _, _, he, _ => by simp [erase] at he
  | .comp _ _ _, .int _, _, _, he, _ => by simp [erase] at he
  | .comp _ _ _, .dbl _, _, _, he, _ => by simp [erase] at he
  | .comp _ _ _, .arr _, _, _, he, _ => by simp [erase] at he
theorem decAll_eq : ∀ (ms qs rs : List (Param R)) (chr : List Bool), eraseL ms = eraseL qs → decAll ms chr = (rs, .ok ()) →
    decAll qs chr = (rs, .ok ()) ∧ eraseL rs = eraseL ms
  | [], [], rs, chr, _, h => by
    simp only [decAll, Prod.mk.injEq, and_true] at h
    subst h
    simp [decAll]
  | [], _ :: _, _, _, he, _ => by simp [eraseL] at he
  | _ :: _, [], _, _, he, _ => by simp [eraseL] at he
  | m :: ms, q :: qs, rs, chr, he, h => by
    simp only [eraseL, List.cons.injEq] at he
    have hsz : q.chromosomeSize = m.chromosomeSize := by
      have : ∀ x y : Param R, erase x = erase y → y.chromosomeSize = x.chromosomeSize := by
        intro x y hxy
        cases x <;> cases y <;> simp only [erase, Param.int.injEq, Param.dbl.injEq, Param.arr.injEq, Param.comp.injEq, IntParam.mk.injEq,
          DblParam.mk.injEq, ArrParam.mk.injEq, reduceCtorEq] at hxy <;> simp [chromosomeSize, hxy.1]
      exact this _ _ he.1
    unfold decAll at *
    rw [hsz]
    split at h
    · next s hs =>
      split at h
      · next cur rest hsl =>
        split at h
        · next m' hm =>
          simp only [Prod.mk.injEq] at h
          obtain ⟨rfl, h⟩ := h
          obtain ⟨a, b⟩ := dec_eq m q m' cur he.1 hm
          obtain ⟨c, d⟩ := decAll_eq ms qs (decAll ms rest).1 rest he.2 (by rw [← h])
          simp only [a, c, eraseL, b, d, and_self]
        · simp at h
        · simp at h
      · simp at h
      · simp at h
    · simp at h
    · simp at h
end

theorem writeBits_length (d : Int) : ∀ (chr : List Bool) (n : Nat) (out : List Bool), IntParam.writeBits d chr n = .ok out →
    out.length = chr.length
  | [], n, out, h => by
    simp only [IntParam.writeBits, Res.ok.injEq] at h
    subst h; rfl
  | _ :: bs, n, out, h => by
    unfold IntParam.writeBits at h
    split at h
    · rw [Res.bind_eq_ok] at h
      obtain ⟨rest, hr, h⟩ := h
      simp only [Res.pure_eq, Res.ok.injEq] at h
      subst h
      simp [writeBits_length d bs (n + 1) rest hr]
    · simp at h

theorem int_enc_length {p : IntParam} {chr out : List Bool} (h : p.setChromosome chr = .ok out) : out.length = chr.length := by
  unfold IntParam.setChromosome at h
  rw [Res.bind_eq_ok] at h
  obtain ⟨_, _, h⟩ := h
  rw [Res.bind_eq_ok] at h
  obtain ⟨d, _, h⟩ := h
  exact writeBits_length d chr 0 out h

theorem dbl_enc_length {p : DblParam R} {chr out : List Bool} (h : p.setChromosome chr = .ok out) : out.length = chr.length := by
  unfold DblParam.setChromosome at h
  split at h
  · simp at h
  · exact int_enc_length h

theorem slice_lengths {chr a b : List Bool} {n : Nat} (h : slice chr n = .ok (a, b)) : a.length + b.length = chr.length := by
  unfold slice at h
  split at h
  · simp at h
  · next hn =>
    simp only [Res.ok.injEq, Prod.mk.injEq] at h
    obtain ⟨rfl, rfl⟩ := h
    simp
    omega

theorem arr_enc_length (p : DblParam R) : ∀ (vs : List R) (chr out : List Bool), ArrParam.encLoop p vs chr = .ok out →
    out.length = chr.length
  | [], chr, out, h => by
    simp only [ArrParam.encLoop, Res.ok.injEq] at h
    subst h; rfl
  | v :: vs, chr, out, h => by
    unfold ArrParam.encLoop at h
    rw [Res.bind_eq_ok] at h
    obtain ⟨s, _, h⟩ := h
    rw [Res.bind_eq_ok] at h
    obtain ⟨⟨cur, rest⟩, hs, h⟩ := h
    simp only at h
    rw [Res.bind_eq_ok] at h
    obtain ⟨q, _, h⟩ := h
    rw [Res.bind_eq_ok] at h
    obtain ⟨o, ho, h⟩ := h
    rw [Res.bind_eq_ok] at h
    obtain ⟨os, hos, h⟩ := h
    simp only [Res.pure_eq, Res.ok.injEq] at h
    subst h
    have := slice_lengths hs
    have := dbl_enc_length ho
    have := arr_enc_length p vs rest os hos
    simp; omega

mutual
theorem enc_length : ∀ (p : Param R) (chr out : List Bool), p.setChromosome chr = .ok out → out.length = chr.length
  | .int p, chr, out, h => int_enc_length (p := p) (by simpa [setChromosome] using h)
  | .dbl p, chr, out, h => dbl_enc_length (p := p) (by simpa [setChromosome] using h)
  | .arr a, chr, out, h => by
    simp only [setChromosome, ArrParam.setChromosome] at h
    rw [Res.bind_eq_ok] at h
    obtain ⟨_, _, h⟩ := h
    exact arr_enc_length _ _ _ _ h
  | .comp cs init ms, chr, out, h => by
    simp only [setChromosome] at h
    split at h
    · rw [Res.bind_eq_ok] at h
      obtain ⟨_, _, h⟩ := h
      exact encAll_length ms chr out h
    · simp at h
theorem encAll_length : ∀ (ms : List (Param R)) (chr out : List Bool), encAll ms chr = .ok out → out.length = chr.length
  | [], chr, out, h => by
    simp only [encAll, Res.ok.injEq] at h
    subst h; rfl
  | m :: ms, chr, out, h => by
    unfold encAll at h
    rw [Res.bind_eq_ok] at h
    obtain ⟨s, _, h⟩ := h
    rw [Res.bind_eq_ok] at h
    obtain ⟨⟨cur, rest⟩, hs, h⟩ := h
    simp only at h
    rw [Res.bind_eq_ok] at h
    obtain ⟨o, ho, h⟩ := h
    rw [Res.bind_eq_ok] at h
    obtain ⟨os, hos, h⟩ := h
    simp only [Res.pure_eq, Res.ok.injEq] at h
    subst h
    have := slice_lengths hs
    have := enc_length m cur o ho
    have := encAll_length ms rest os hos
    simp; omega
end

/-- The objects that differ from the well-formed object `p0` only in their values. -/
def Fam (p0 : Param R) (s : Nat) (q : Param R) : Prop := WFP q s ∧ erase q = erase p0

/-- The library's parameter objects (any nesting of composites) satisfy everything the genetic algorithm's theorems ask of a family. -/
theorem family (p0 : Param R) (s : Nat) : GA.Family (Fam p0 s) s where
  clone p h := clone_aux p s h.1
  size p h := WFP.size h.1
  enc p chr out _ h := enc_length p chr out h
  dec p chr q h e := by
    obtain ⟨_, b⟩ := dec_eq p p q chr rfl e
    refine ⟨⟨?_, b.trans h.2⟩, fun p' hp' => (dec_eq p p' q chr (h.2.trans hp'.2.symm) e).1⟩
    have := wf_setFrom p s chr h.1
    have e' : p.setFromChromosome chr = (q, .ok ()) := e
    rw [e'] at this
    exact this

end K52.Param
