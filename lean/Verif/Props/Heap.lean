import Verif.Model.Heap
import Verif.Props.Composite

/-!
# Property C15: `Clone` is a deep, equal and independent copy

Specification: `Denotes` (what tree of values an address stands for), `Reach` (which objects can be got at from an
address), `Client` (anything code can do that holds only one pointer: read and overwrite objects it can reach, allocate).
-/

set_option linter.unusedSectionVars false

namespace K52.Heap
variable {R : Type} [Field R] [LinearOrder R] [IsStrictOrderedRing R] [FloorRing R]

/-! ### specification -/

/-- The address holds a `DoubleParameter` with this state. -/
def DenotesD (h : List (Cell R)) (a : Nat) (p : DblParam R) : Prop :=
  match p.base with
  | none => h[a]? = some (.dbl p.cs none p.min p.max p.prec)
  | some q => ∃ b, h[a]? = some (.dbl p.cs (some b) p.min p.max p.prec) ∧ h[b]? = some (.int q)

mutual
/-- The object at the address has the observable state `p` (fields, and the states of the objects it points to). -/
def Denotes (h : List (Cell R)) : Param R → Nat → Prop
  | .int p, a => h[a]? = some (.int p)
  | .dbl p, a => DenotesD h a p
  | .arr p, a => ∃ sa, h[a]? = some (.arr p.cs sa p.values) ∧ DenotesD h sa p.sample
  | .comp cs i ms, a => ∃ as, h[a]? = some (.comp cs i as) ∧ DenotesL h ms as
def DenotesL (h : List (Cell R)) : List (Param R) → List Nat → Prop
  | [], as => as = []
  | m :: ms, as => ∃ a as', as = a :: as' ∧ Denotes h m a ∧ DenotesL h ms as'
end

/-- `x` can be reached from `a` by following pointers. -/
inductive Reach (h : List (Cell R)) (a : Nat) : Nat → Prop
  | refl : Reach h a a
  | step {x y : Nat} {c : Cell R} : Reach h a x → h[x]? = some c → y ∈ c.ptrs → Reach h a y

/-- One action of code that holds only the pointer `root`: it may overwrite objects it can reach – with anything built from
pointers it can reach or has just allocated – and allocate objects; every other object keeps its contents. -/
structure Client (root : Nat) (h h' : List (Cell R)) : Prop where
  grows : h.length ≤ h'.length
  frame : ∀ x, x < h.length → ¬ Reach h root x → h'[x]? = h[x]?
  closed : ∀ x c y, (x < h.length → Reach h root x) → h'[x]? = some c → y ∈ c.ptrs →
    (Reach h root y ∨ h.length ≤ y ∧ y < h'.length)

/-- Any history in which the two pointers are used alternately, `false` for the first and `true` for the second. -/
inductive Hist (a b : Nat) : List Bool → List (Cell R) → List (Cell R) → Prop
  | nil (h) : Hist a b [] h h
  | cons {w ws h h1 h2} : Client (if w then b else a) h h1 → Hist a b ws h1 h2 → Hist a b (w :: ws) h h2

/-- No dangling pointers. -/
def Closed (h : List (Cell R)) : Prop := ∀ (x : Nat) c y, h[x]? = some c → y ∈ c.ptrs → y < h.length

/-! ### clone -/

theorem DenotesD.mono {h h' : List (Cell R)} (hh : h <+: h') {a : Nat} {p : DblParam R} (hd : DenotesD h a p) :
    DenotesD h' a p := by
  obtain ⟨t, rfl⟩ := hh
  have key : ∀ {x : Nat} {c : Cell R}, h[x]? = some c → (h ++ t)[x]? = some c := by
    intro x c hx
    obtain ⟨hl, _⟩ := List.getElem?_eq_some_iff.1 hx
    rw [List.getElem?_append_left hl]; exact hx
  unfold DenotesD at *
  cases hb : p.base with
  | none => rw [hb] at hd; exact key hd
  | some q =>
    rw [hb] at hd
    obtain ⟨b, h1, h2⟩ := hd
    exact ⟨b, key h1, key h2⟩

theorem get_mono {h h' : List (Cell R)} (hh : h <+: h') {x : Nat} {c : Cell R} (hx : h[x]? = some c) :
    h'[x]? = some c := by
  obtain ⟨t, rfl⟩ := hh
  obtain ⟨hl, _⟩ := List.getElem?_eq_some_iff.1 hx
  rw [List.getElem?_append_left hl]; exact hx

mutual
theorem Denotes.mono {h h' : List (Cell R)} (hh : h <+: h') : ∀ (p : Param R) (a : Nat), Denotes h p a → Denotes h' p a
  | .int p, a, hd => get_mono hh hd
  | .dbl p, a, hd => by simp only [Denotes] at *; exact hd.mono hh
  | .arr p, a, hd => by
    simp only [Denotes] at *
    obtain ⟨sa, h1, h2⟩ := hd
    exact ⟨sa, get_mono hh h1, h2.mono hh⟩
  | .comp cs i ms, a, hd => by
    simp only [Denotes] at *
    obtain ⟨as, h1, h2⟩ := hd
    exact ⟨as, get_mono hh h1, DenotesL.mono hh ms as h2⟩
theorem DenotesL.mono {h h' : List (Cell R)} (hh : h <+: h') :
    ∀ (ms : List (Param R)) (as : List Nat), DenotesL h ms as → DenotesL h' ms as
  | [], as, hd => hd
  | m :: ms, as, hd => by
    simp only [DenotesL] at *
    obtain ⟨a, as', rfl, h1, h2⟩ := hd
    exact ⟨a, as', rfl, Denotes.mono hh m a h1, DenotesL.mono hh ms as' h2⟩
end

/-- What every clone call establishes: the old heap is untouched, the new objects only point to new objects. -/
structure Fresh (h h' : List (Cell R)) : Prop where
  pre : h <+: h'
  fresh : ∀ x c y, h.length ≤ x → h'[x]? = some c → y ∈ c.ptrs → h.length ≤ y ∧ y < h'.length

theorem Fresh.refl (h : List (Cell R)) : Fresh h h :=
  ⟨List.prefix_refl h, fun x c y hx hc _ => by
    obtain ⟨hl, _⟩ := List.getElem?_eq_some_iff.1 hc
    omega⟩

theorem Fresh.trans {h h1 h2 : List (Cell R)} (a : Fresh h h1) (b : Fresh h1 h2) : Fresh h h2 := by
  refine ⟨a.pre.trans b.pre, fun x c y hx hc hy => ?_⟩
  have l1 := a.pre.length_le
  have l2 := b.pre.length_le
  by_cases hx1 : h1.length ≤ x
  · obtain ⟨p, q⟩ := b.fresh x c y hx1 hc hy
    exact ⟨by omega, q⟩
  · have : h1[x]? = some c := by
      obtain ⟨t, rfl⟩ := b.pre
      rw [List.getElem?_append_left (by omega)] at hc; exact hc
    obtain ⟨p, q⟩ := a.fresh x c y hx this hy
    exact ⟨p, by omega⟩

theorem Fresh.alloc {h h1 : List (Cell R)} (a : Fresh h h1) (c : Cell R)
    (hc : ∀ y ∈ c.ptrs, h.length ≤ y ∧ y < h1.length) : Fresh h (h1 ++ [c]) := by
  refine ⟨a.pre.trans (List.prefix_append _ _), fun x d y hx hd hy => ?_⟩
  rcases lt_trichotomy x h1.length with hl | hl | hl
  · rw [List.getElem?_append_left hl] at hd
    obtain ⟨p, q⟩ := a.fresh x d y hx hd hy
    refine ⟨p, ?_⟩
    simp; omega
  · subst hl
    simp at hd; subst hd
    obtain ⟨p, q⟩ := hc y hy
    refine ⟨p, ?_⟩
    simp; omega
  · rw [List.getElem?_append_right (by omega)] at hd
    rw [List.getElem?_eq_none (by simp; omega)] at hd
    simp at hd

theorem get_alloc (h : List (Cell R)) (c : Cell R) : (h ++ [c])[h.length]? = some c := by simp

/-- Result of a clone call that copies a tree `p`: `q` at a fresh address. -/
structure Copied (h : List (Cell R)) (q : Param R) (r : List (Cell R) × Nat) : Prop where
  fr : Fresh h r.1
  lo : h.length ≤ r.2
  hi : r.2 < r.1.length
  den : Denotes r.1 q r.2

theorem clone_intcell {h : List (Cell R)} {b : Nat} {p q : IntParam} (hb : h[b]? = some (.int p)) (hq : p.clone = .ok q) (f : Nat) :
    clone (f + 1) h b = .ok (h ++ [.int q], h.length) := by
  rw [clone, hb]
  simp [hq]

theorem cloneD {h : List (Cell R)} {a : Nat} {p q : DblParam R} (hd : DenotesD h a p) (hq : p.clone = .ok q) (f : Nat) :
    ∃ r, clone (f + 2) h a = .ok r ∧ Copied h (.dbl q) r := by
  unfold DenotesD at hd
  unfold DblParam.clone at hq
  cases hb : p.base with
  | none =>
    rw [hb] at hd hq
    simp at hq; subst hq
    simp only at hd
    refine ⟨(h ++ [.dbl p.cs none p.min p.max p.prec], h.length), by rw [clone, hd], ?_⟩
    refine ⟨(Fresh.refl h).alloc _ (by simp [Cell.ptrs]), le_refl _, by simp, ?_⟩
    simp [Denotes, DenotesD]
  | some b =>
    rw [hb] at hd hq
    simp only at hd hq
    obtain ⟨ba, h1, h2⟩ := hd
    rw [Res.bind_eq_ok] at hq
    obtain ⟨b', hb', hq⟩ := hq
    simp at hq; subst hq
    refine ⟨(h ++ [.int b'] ++ [.dbl p.cs (some h.length) p.min p.max p.prec], (h ++ [Cell.int b']).length), ?_, ?_⟩
    · rw [clone, h1]
      simp [clone_intcell h2 hb' f]
    · refine ⟨((Fresh.refl h).alloc (.int b') (by simp [Cell.ptrs])).alloc _ (by simp [Cell.ptrs]), by simp, by simp, ?_⟩
      simp [Denotes, DenotesD]

theorem size_of_denotesD {h : List (Cell R)} {a : Nat} {p : DblParam R} (hd : DenotesD h a p) : sizeAt h a = p.cs.get := by
  unfold DenotesD at hd
  cases hb : p.base with
  | none => rw [hb] at hd; simp only at hd; simp [sizeAt, hd, Cell.size]
  | some q => rw [hb] at hd; obtain ⟨b, h1, _⟩ := hd; simp [sizeAt, h1, Cell.size]

theorem size_of_denotes {h : List (Cell R)} {a : Nat} {p : Param R} (hd : Denotes h p a) : sizeAt h a = p.chromosomeSize := by
  cases p with
  | int p => simp only [Denotes] at hd; simp [sizeAt, hd, Cell.size, Param.chromosomeSize]
  | dbl p => simp only [Denotes] at hd; simp [size_of_denotesD hd, Param.chromosomeSize]
  | arr p => simp only [Denotes] at hd; obtain ⟨sa, h1, _⟩ := hd; simp [sizeAt, h1, Cell.size, Param.chromosomeSize]
  | comp cs i ms => simp only [Denotes] at hd; obtain ⟨sa, h1, _⟩ := hd; simp [sizeAt, h1, Cell.size, Param.chromosomeSize]

theorem total_of_denotes {h : List (Cell R)} : ∀ (ms : List (Param R)) (as : List Nat), DenotesL h ms as →
    totalAt h as = Param.totalSize ms
  | [], as, hd => by simp only [DenotesL] at hd; subst hd; rfl
  | m :: ms, as, hd => by
    simp only [DenotesL] at hd
    obtain ⟨a, as', rfl, h1, h2⟩ := hd
    simp [totalAt, Param.totalSize, size_of_denotes h1, total_of_denotes ms as' h2]

mutual
theorem clone_spec : ∀ (p q : Param R), p.clone = .ok q → ∃ f0, ∀ f, f0 ≤ f → ∀ (h : List (Cell R)) (a : Nat),
    Denotes h p a → ∃ r, clone f h a = .ok r ∧ Copied h q r
  | .int p, q, hq => by
    simp only [Param.clone] at hq
    rw [Res.bind_eq_ok] at hq
    obtain ⟨p', hp', hq⟩ := hq
    simp at hq; subst hq
    refine ⟨1, fun f hf h a hd => ?_⟩
    obtain ⟨f, rfl⟩ : ∃ g, f = g + 1 := ⟨f - 1, by omega⟩
    simp only [Denotes] at hd
    refine ⟨_, clone_intcell hd hp' f, (Fresh.refl h).alloc _ (by simp [Cell.ptrs]), le_refl _, by simp, ?_⟩
    simp [Denotes]
  | .dbl p, q, hq => by
    simp only [Param.clone] at hq
    rw [Res.bind_eq_ok] at hq
    obtain ⟨p', hp', hq⟩ := hq
    simp at hq; subst hq
    refine ⟨2, fun f hf h a hd => ?_⟩
    obtain ⟨f, rfl⟩ : ∃ g, f = g + 2 := ⟨f - 2, by omega⟩
    simp only [Denotes] at hd
    exact cloneD hd hp' f
  | .arr p, q, hq => by
    simp only [Param.clone] at hq
    rw [Res.bind_eq_ok] at hq
    obtain ⟨p', hp', hq⟩ := hq
    simp at hq; subst hq
    unfold ArrParam.clone at hp'
    rw [Res.bind_eq_ok] at hp'
    obtain ⟨sm, hsm, hp'⟩ := hp'
    rw [Res.bind_eq_ok] at hp'
    obtain ⟨s, hs, hp'⟩ := hp'
    rw [Res.bind_eq_ok] at hp'
    obtain ⟨cs', hcs, hp'⟩ := hp'
    simp at hp'; subst hp'
    refine ⟨3, fun f hf h a hd => ?_⟩
    obtain ⟨f, rfl⟩ : ∃ g, f = g + 3 := ⟨f - 3, by omega⟩
    simp only [Denotes] at hd
    obtain ⟨sa, h1, h2⟩ := hd
    obtain ⟨r, hr, hc⟩ := cloneD h2 hsm f
    refine ⟨(r.1 ++ [.arr cs' r.2 p.values], r.1.length), ?_, ?_⟩
    · rw [clone, h1]
      simp [hr, size_of_denotesD h2, hs, hcs]
    · refine ⟨hc.fr.alloc _ ?_, hc.fr.pre.length_le, by simp, ?_⟩
      · simp [Cell.ptrs]; exact ⟨hc.lo, hc.hi⟩
      · simp only [Denotes]
        have := hc.den
        simp only [Denotes] at this
        exact ⟨r.2, by simp, this.mono (List.prefix_append _ _)⟩
  | .comp cs init ms, q, hq => by
    simp only [Param.clone] at hq
    cases hi : init with
    | false => rw [hi] at hq; simp at hq
    | true =>
      rw [hi] at hq
      simp only [if_true] at hq
      rw [Res.bind_eq_ok] at hq
      obtain ⟨ms', hms, hq⟩ := hq
      obtain ⟨f0, hf0⟩ := cloneAll_spec ms ms' hms
      refine ⟨f0 + 1, fun f hf h a hd => ?_⟩
      obtain ⟨f, rfl⟩ : ∃ g, f = g + 1 := ⟨f - 1, by omega⟩
      simp only [Denotes] at hd
      obtain ⟨as, h1, h2⟩ := hd
      obtain ⟨r, hr, hfr, hlo, hden⟩ := hf0 f (by omega) h as h2
      simp only [Param.initWith, ConstSize.set, ConstSize.new] at hq
      cases ht : Param.totalSize ms' with
      | throw w => rw [ht] at hq; simp at hq
      | ub => rw [ht] at hq; simp at hq
      | ok t =>
        rw [ht] at hq
        simp at hq; subst hq
        refine ⟨(r.1 ++ [.comp ⟨true, t⟩ true r.2], r.1.length), ?_, ?_⟩
        · rw [clone, h1]
          simp [hr, total_of_denotes ms' r.2 hden, ht, ConstSize.set, ConstSize.new]
        · refine ⟨hfr.alloc _ ?_, hfr.pre.length_le, by simp, ?_⟩
          · simpa [Cell.ptrs] using hlo
          · simp only [Denotes]
            exact ⟨r.2, by simp, DenotesL.mono (List.prefix_append _ _) ms' r.2 hden⟩
theorem cloneAll_spec : ∀ (ms qs : List (Param R)), Param.cloneAll ms = .ok qs → ∃ f0, ∀ f, f0 ≤ f →
    ∀ (h : List (Cell R)) (as : List Nat), DenotesL h ms as →
    ∃ r, cloneAll f h as = .ok r ∧ Fresh h r.1 ∧ (∀ y ∈ r.2, h.length ≤ y ∧ y < r.1.length) ∧ DenotesL r.1 qs r.2
  | [], qs, hq => by
    simp only [Param.cloneAll, Res.ok.injEq] at hq
    subst hq
    refine ⟨0, fun f _ h as hd => ?_⟩
    simp only [DenotesL] at hd
    subst hd
    exact ⟨(h, []), by rw [cloneAll], Fresh.refl h, by simp, by simp [DenotesL]⟩
  | m :: ms, qs, hq => by
    simp only [Param.cloneAll] at hq
    rw [Res.bind_eq_ok] at hq
    obtain ⟨m', hm, hq⟩ := hq
    rw [Res.bind_eq_ok] at hq
    obtain ⟨ms', hms, hq⟩ := hq
    simp at hq; subst hq
    obtain ⟨f1, hf1⟩ := clone_spec m m' hm
    obtain ⟨f2, hf2⟩ := cloneAll_spec ms ms' hms
    refine ⟨max f1 f2, fun f hf h as hd => ?_⟩
    simp only [DenotesL] at hd
    obtain ⟨a, as', rfl, h1, h2⟩ := hd
    obtain ⟨r, hr, hc⟩ := hf1 f (by omega) h a h1
    obtain ⟨rs, hrs, hfr, hlo, hden⟩ := hf2 f (by omega) r.1 as' (DenotesL.mono hc.fr.pre ms as' h2)
    refine ⟨(rs.1, r.2 :: rs.2), ?_, hc.fr.trans hfr, ?_, ?_⟩
    · rw [cloneAll, hr]
      simp [hrs]
    · have l1 := hc.fr.pre.length_le
      have l2 := hfr.pre.length_le
      intro y hy
      simp at hy
      rcases hy with rfl | hy
      · exact ⟨hc.lo, lt_of_lt_of_le hc.hi l2⟩
      · have := hlo y hy
        exact ⟨by omega, this.2⟩
    · simp only [DenotesL]
      exact ⟨r.2, rs.2, rfl, Denotes.mono hfr.pre m' r.2 hc.den, hden⟩
end

/-! ### independence -/

/-- The two roots own disjoint parts of the heap. -/
structure Apart (a b : Nat) (h : List (Cell R)) : Prop where
  closed : ∀ x, Reach h a x → x < h.length
  closed' : ∀ x, Reach h b x → x < h.length
  disj : ∀ x, Reach h a x → Reach h b x → False

theorem Apart.symm {a b : Nat} {h : List (Cell R)} (ap : Apart a b h) : Apart b a h :=
  ⟨ap.closed', ap.closed, fun x h1 h2 => ap.disj x h2 h1⟩

theorem Apart.client {a b : Nat} {h h' : List (Cell R)} (ap : Apart a b h) (c : Client a h h') :
    Apart a b h' ∧ ∀ x, Reach h b x → h'[x]? = h[x]? := by
  have keep : ∀ x, Reach h b x → h'[x]? = h[x]? := fun x hx =>
    c.frame x (ap.closed' x hx) (fun hx' => ap.disj x hx' hx)
  have rb : ∀ x, Reach h' b x → Reach h b x := by
    intro x hx
    induction hx with
    | refl => exact .refl
    | step _ hc hy ih =>
      rw [keep _ ih] at hc
      exact .step ih hc hy
  have ra : ∀ x, Reach h' a x → Reach h a x ∨ (h.length ≤ x ∧ x < h'.length) := by
    intro x hx
    induction hx with
    | refl => exact .inl .refl
    | step _ hc hy ih =>
      refine c.closed _ _ _ (fun hl => ?_) hc hy
      rcases ih with ih | ih
      · exact ih
      · omega
  refine ⟨⟨?_, ?_, ?_⟩, keep⟩
  · intro x hx
    rcases ra x hx with hx | hx
    · exact lt_of_lt_of_le (ap.closed x hx) c.grows
    · exact hx.2
  · intro x hx
    exact lt_of_lt_of_le (ap.closed' x (rb x hx)) c.grows
  · intro x h1 h2
    have h2 := rb x h2
    rcases ra x h1 with h1 | h1
    · exact ap.disj x h1 h2
    · have := ap.closed' x h2; omega

theorem denotesD_congr {h h' : List (Cell R)} {a : Nat} {p : DblParam R}
    (hk : ∀ x, Reach h a x → h'[x]? = h[x]?) (hd : DenotesD h a p) : DenotesD h' a p := by
  unfold DenotesD at *
  cases hb : p.base with
  | none => rw [hb] at hd; simp only at *; rw [hk a .refl]; exact hd
  | some q =>
    rw [hb] at hd
    obtain ⟨b, h1, h2⟩ := hd
    refine ⟨b, by rw [hk a .refl]; exact h1, ?_⟩
    rw [hk b (.step .refl h1 (by simp [Cell.ptrs]))]; exact h2

theorem Reach.from_ptr {h : List (Cell R)} {a y x : Nat} {c : Cell R} (hc : h[a]? = some c) (hy : y ∈ c.ptrs) (hx : Reach h y x) :
    Reach h a x := by
  induction hx with
  | refl => exact .step .refl hc hy
  | step _ hc' hy' ih => exact .step ih hc' hy'

mutual
theorem denotes_congr {h h' : List (Cell R)} : ∀ (p : Param R) (a : Nat),
    (∀ x, Reach h a x → h'[x]? = h[x]?) → Denotes h p a → Denotes h' p a
  | .int p, a, hk, hd => by simp only [Denotes] at *; rw [hk a .refl]; exact hd
  | .dbl p, a, hk, hd => by simp only [Denotes] at *; exact denotesD_congr hk hd
  | .arr p, a, hk, hd => by
    simp only [Denotes] at *
    obtain ⟨sa, h1, h2⟩ := hd
    exact ⟨sa, by rw [hk a .refl]; exact h1,
      denotesD_congr (fun x hx => hk x (Reach.from_ptr h1 (by simp [Cell.ptrs]) hx)) h2⟩
  | .comp cs i ms, a, hk, hd => by
    simp only [Denotes] at *
    obtain ⟨as, h1, h2⟩ := hd
    exact ⟨as, by rw [hk a .refl]; exact h1,
      denotesL_congr ms as (fun y hy x hx => hk x (Reach.from_ptr h1 hy hx)) h2⟩
theorem denotesL_congr {h h' : List (Cell R)} : ∀ (ms : List (Param R)) (as : List Nat),
    (∀ y ∈ as, ∀ x, Reach h y x → h'[x]? = h[x]?) → DenotesL h ms as → DenotesL h' ms as
  | [], as, hk, hd => hd
  | m :: ms, as, hk, hd => by
    simp only [DenotesL] at *
    obtain ⟨a, as', rfl, h1, h2⟩ := hd
    exact ⟨a, as', rfl, denotes_congr m a (hk a (by simp)) h1,
      denotesL_congr ms as' (fun y hy => hk y (by simp [hy])) h2⟩
end

theorem Hist.symm {a b : Nat} {ws : List Bool} {h h' : List (Cell R)} (hh : Hist a b ws h h') :
    Hist b a (ws.map (!·)) h h' := by
  induction hh with
  | nil h => exact .nil h
  | @cons w ws h h1 h2 c _ ih =>
    refine .cons ?_ ih
    cases w <;> simpa using c

theorem Apart.alone {a b : Nat} {n : Nat} {h h2 : List (Cell R)} {r : Param R} (ap : Apart a b h)
    (hh : Hist a b (List.replicate n false) h h2) (hd : Denotes h r b) : Denotes h2 r b := by
  induction n generalizing h with
  | zero => cases hh; exact hd
  | succ n ih =>
    rw [List.replicate_succ] at hh
    cases hh with
    | cons c hh =>
      obtain ⟨ap', keep⟩ := ap.client c
      exact ih ap' hh (denotes_congr _ _ keep hd)

theorem apart_of_copied {h : List (Cell R)} (hcl : Closed h) {a : Nat} (ha : a < h.length) {q : Param R}
    {r : List (Cell R) × Nat} (hc : Copied h q r) : Apart a r.2 r.1 := by
  have old : ∀ x, Reach r.1 a x → x < h.length := by
    intro x hx
    induction hx with
    | refl => exact ha
    | step _ hc' hy ih =>
      obtain ⟨t, ht⟩ := hc.fr.pre
      rw [← ht, List.getElem?_append_left ih] at hc'
      exact hcl _ _ _ hc' hy
  have new : ∀ x, Reach r.1 r.2 x → h.length ≤ x ∧ x < r.1.length := by
    intro x hx
    induction hx with
    | refl => exact ⟨hc.lo, hc.hi⟩
    | step _ hc' hy ih => exact hc.fr.fresh _ _ _ ih.1 hc' hy
  exact ⟨fun x hx => lt_of_lt_of_le (old x hx) hc.fr.pre.length_le, fun x hx => (new x hx).2,
    fun x h1 h2 => by have := old x h1; have := new x h2; omega⟩

/-! ### the property -/

/-- **C15 (copy).** Cloning the object at `a` – whatever tree of parameters it stands for, whenever the value-level `Clone`
succeeds – leaves every existing object untouched and returns a new object that has the same state as the original:
nothing in the original reaches the clone's objects or the other way round. -/
theorem C15_clone_deep (h : List (Cell R)) (hcl : Closed h) (a : Nat) (p : Param R) (s : Nat) (hp : Param.WFP p s)
    (hd : Denotes h p a) :
    ∃ f0, ∀ f, f0 ≤ f → ∃ h' a', clone f h a = .ok (h', a') ∧ h <+: h' ∧
      Denotes h' p a ∧ Denotes h' p a' ∧ (∀ x, Reach h' a x → Reach h' a' x → False) := by
  obtain ⟨f0, hf0⟩ := clone_spec p p (Param.C15_clone_equal p s hp)
  refine ⟨f0, fun f hf => ?_⟩
  obtain ⟨r, hr, hc⟩ := hf0 f hf h a hd
  have ha : a < h.length := by
    have : ∃ c, h[a]? = some c := by
      cases p with
      | int p => exact ⟨_, hd⟩
      | dbl p =>
        simp only [Denotes, DenotesD] at hd
        cases hb : p.base with
        | none => rw [hb] at hd; exact ⟨_, hd⟩
        | some q => rw [hb] at hd; obtain ⟨b, h1, _⟩ := hd; exact ⟨_, h1⟩
      | arr p => simp only [Denotes] at hd; obtain ⟨sa, h1, _⟩ := hd; exact ⟨_, h1⟩
      | comp cs i ms => simp only [Denotes] at hd; obtain ⟨as, h1, _⟩ := hd; exact ⟨_, h1⟩
    obtain ⟨c, hc⟩ := this
    exact (List.getElem?_eq_some_iff.1 hc).1
  exact ⟨r.1, r.2, hr, hc.fr.pre, Denotes.mono hc.fr.pre p a hd, hc.den, (apart_of_copied hcl ha hc).disj⟩

/-- **C15 (uninitialised).** A composite that was never initialised cannot be cloned: the call throws. -/
theorem C15_clone_uninitialised (h : List (Cell R)) (f a : Nat) (cs : ConstSize) (as : List Nat) (ha : h[a]? = some (.comp cs false as)) :
    clone (f + 1) h a = .throw "logic_error" := by
  simp [clone, ha]

/-- **C15 (independence).** After a clone, let code use the two objects in any order, any number of times, each time doing
anything at all through one of them.  As long as only one of the two is used, the other one's observable state stays what
it was; and the two stay independent for ever (`Apart`), so this can be repeated after each step. -/
theorem C15_clone_independent (h : List (Cell R)) (hcl : Closed h) (a : Nat) (ha : a < h.length) (p q : Param R)
    (hd : Denotes h p a) (hq : p.clone = .ok q) :
    ∃ f0, ∀ f, f0 ≤ f → ∃ h' a', clone f h a = .ok (h', a') ∧
      ∀ ws h1, Hist a a' ws h' h1 →
        (∀ n h2 r, Hist a a' (List.replicate n false) h1 h2 → Denotes h1 r a' → Denotes h2 r a') ∧
        (∀ n h2 r, Hist a a' (List.replicate n true) h1 h2 → Denotes h1 r a → Denotes h2 r a) := by
  obtain ⟨f0, hf0⟩ := clone_spec p q hq
  refine ⟨f0, fun f hf => ?_⟩
  obtain ⟨r, hr, hc⟩ := hf0 f hf h a hd
  refine ⟨r.1, r.2, hr, fun ws h1 hw => ?_⟩
  have ap := apart_of_copied hcl ha hc
  have ap1 : Apart a r.2 h1 := by
    clear hr hc
    revert ap
    generalize r.1 = g at hw
    intro ap
    induction hw with
    | nil => exact ap
    | @cons w ws h0 h1 h2 c _ ih =>
      refine ih ?_
      cases w with
      | false => exact (ap.client c).1
      | true => exact (ap.symm.client c).1.symm
  refine ⟨fun n h2 q hh hden => ap1.alone hh hden, fun n h2 q hh hden => ap1.symm.alone (n := n) ?_ hden⟩
  have := hh.symm
  simpa using this

/-! ### the updating member functions are clients; non-vacuity -/

/-- Overwriting one reachable object without changing its pointers is an action of a client: this is what
`IntParameter::set_value`, `DoubleParameter::SetValue`, `DoubleParametersArray::SetValues` and, object by object,
`SetFromChromosome` do. -/
theorem client_overwrite (h : List (Cell R)) (root x : Nat) (c d : Cell R) (hx : Reach h root x) (hc : h[x]? = some c)
    (hp : d.ptrs = c.ptrs) : Client root h (h.set x d) := by
  refine ⟨by simp, ?_, ?_⟩
  · intro y _ hy
    rw [List.getElem?_set]
    split
    · next e => subst e; exact absurd hx hy
    · rfl
  · intro y e z hy he hz
    rw [List.getElem?_set] at he
    split at he
    · next e' =>
      subst e'
      split at he
      · simp at he; subst he
        rw [hp] at hz
        exact .inl (.step hx hc hz)
      · simp at he
    · have hl : y < h.length := (List.getElem?_eq_some_iff.1 he).1
      exact .inl (.step (hy hl) he hz)

/-- `Initialize` on a reachable composite: new members are allocated and the member list is replaced. -/
theorem client_allocate (h : List (Cell R)) (root x : Nat) (d : Cell R) (new : List (Cell R)) (hx : Reach h root x)
    (hxl : x < h.length) (hd : ∀ y ∈ d.ptrs, h.length ≤ y ∧ y < h.length + new.length)
    (hn : ∀ c ∈ new, ∀ y ∈ c.ptrs, h.length ≤ y ∧ y < h.length + new.length) : Client root h ((h.set x d) ++ new) := by
  refine ⟨by simp, ?_, ?_⟩
  · intro y hl hy
    rw [List.getElem?_append_left (by simpa using hl), List.getElem?_set]
    split
    · next e => subst e; exact absurd hx hy
    · rfl
  · intro y e z hy he hz
    by_cases hl : y < h.length
    · rw [List.getElem?_append_left (by simpa using hl), List.getElem?_set] at he
      split at he
      · next e' =>
        subst e'
        simp at he; subst he
        exact .inr (by simpa using hd z hz)
      · exact .inl (.step (hy hl) he hz)
    · rw [List.getElem?_append_right (by simp; omega)] at he
      have : e ∈ new := List.mem_of_getElem? he
      exact .inr (by simpa using hn e this z hz)

/-- A heap with one composite of an int in [0,5] and a nested composite of another int. -/
example : ∃ (h : List (Cell ℚ)) (p : Param ℚ) (a s : Nat), Closed h ∧ a < h.length ∧ Denotes h p a ∧ Param.WFP p s := by
  have hi : IntParam.countChromosomeSize 0 8 = .ok 3 := by
    have := DblParam.count_pow 3 (by norm_num); simpa using this
  refine ⟨[.int ⟨⟨true, 3⟩, 4, 0, 8⟩, .int ⟨⟨true, 3⟩, 5, 0, 8⟩, .comp ⟨true, 3⟩ true [1], .comp ⟨true, 6⟩ true [0, 2]],
    .comp ⟨true, 6⟩ true [.int ⟨⟨true, 3⟩, 4, 0, 8⟩, .comp ⟨true, 3⟩ true [.int ⟨⟨true, 3⟩, 5, 0, 8⟩]], 3, 6, ?_, by simp, ?_, ?_⟩
  · intro x c y hx hy
    match x, hx with
    | 0, hx => simp at hx; subst hx; simp [Cell.ptrs] at hy
    | 1, hx => simp at hx; subst hx; simp [Cell.ptrs] at hy
    | 2, hx => simp at hx; subst hx; simp [Cell.ptrs] at hy; simp; omega
    | 3, hx => simp at hx; subst hx; simp [Cell.ptrs] at hy; simp; omega
    | n + 4, hx => simp at hx
  · simp [Denotes, DenotesL]
  · simp only [Param.WFP, Param.WFL]
    refine ⟨trivial, trivial, 3, 3, rfl, ⟨rfl, hi, by norm_num [IsInt]⟩, 3, 0, rfl, ⟨rfl, trivial, 3, 0, rfl,
      ⟨rfl, hi, by norm_num [IsInt]⟩, rfl⟩, rfl⟩

end K52.Heap
