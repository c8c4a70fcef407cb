import Verif.Model.HeapComp
import Verif.Props.Heap

/-!
# C130: a composite owns copies of what it was given, and shares them with those who ask for them
-/

set_option linter.unusedSectionVars false

namespace K52.Heap
variable {R : Type} [Field R] [LinearOrder R] [IsStrictOrderedRing R] [FloorRing R]

/-! ## Specification -/

/-- No object can be reached from both. -/
def Disjoint (h : List (Cell R)) (x y : Nat) : Prop := ∀ z, Reach h x z → Reach h y z → False

/-- At `a` is an initialised composite with the members `xs`: different objects that share nothing with each other and do not lead back to the composite. -/
structure Owns (h : List (Cell R)) (a : Nat) (cs : ConstSize) (xs : List Nat) : Prop where
  here : h[a]? = some (.comp cs true xs)
  valid : ∀ x ∈ xs, ∀ z, Reach h x z → z < h.length ∧ z ≠ a
  apart : xs.Pairwise (Disjoint h)

/-- Code that got pointers from `GetParameter` uses them: one action for each index of the list, through the pointer `GetParameter` gives for it. -/
inductive Uses (a : Nat) : List Nat → List (Cell R) → List (Cell R) → Prop
  | nil (h) : Uses a [] h h
  | cons {i is h h1 h2 x} : getParameter h a i = .ok x → Client x h h1 → Uses a is h1 h2 → Uses a (i :: is) h h2

/-! ## What `Initialize` establishes -/

theorem denotesL_iff {h : List (Cell R)} : ∀ {ms : List (Param R)} {as : List Nat}, DenotesL h ms as ↔ List.Forall₂ (Denotes h) ms as
  | [], as => by simp [DenotesL]
  | m :: ms, as => by
    simp only [DenotesL]
    constructor
    · rintro ⟨a, as', rfl, h1, h2⟩
      exact .cons h1 (denotesL_iff.1 h2)
    · intro hf
      cases hf with
      | cons h1 h2 => exact ⟨_, _, rfl, h1, denotesL_iff.2 h2⟩

theorem Fresh.reach {h h' : List (Cell R)} (hf : Fresh h h') {x z : Nat} (hx : h.length ≤ x) (hx' : x < h'.length) (hz : Reach h' x z) :
    h.length ≤ z ∧ z < h'.length := by
  induction hz with
  | refl => exact ⟨hx, hx'⟩
  | step _ hc hy ih => exact hf.fresh _ _ _ ih.1 hc hy

theorem reach_below {h h1 h2 : List (Cell R)} (hf : Fresh h h1) (hp : h1 <+: h2) {x z : Nat} (hx : h.length ≤ x) (hx' : x < h1.length)
    (hz : Reach h2 x z) : h.length ≤ z ∧ z < h1.length := by
  induction hz with
  | refl => exact ⟨hx, hx'⟩
  | @step u v c _ hc hy ih =>
    obtain ⟨t, rfl⟩ := hp
    rw [List.getElem?_append_left ih.2] at hc
    exact hf.fresh _ _ _ ih.1 hc hy

theorem cloneAll_apart : ∀ (ms qs : List (Param R)), Param.cloneAll ms = .ok qs → ∃ f0, ∀ f, f0 ≤ f →
    ∀ (h : List (Cell R)) (as : List Nat), DenotesL h ms as →
    ∃ r, cloneAll f h as = .ok r ∧ Fresh h r.1 ∧ (∀ y ∈ r.2, h.length ≤ y ∧ y < r.1.length) ∧ DenotesL r.1 qs r.2 ∧ r.2.Pairwise (Disjoint r.1)
  | [], qs, hq => by
    simp only [Param.cloneAll, Res.ok.injEq] at hq
    subst hq
    refine ⟨0, fun f _ h as hd => ?_⟩
    simp only [DenotesL] at hd
    subst hd
    exact ⟨(h, []), by rw [cloneAll], Fresh.refl h, by simp, by simp [DenotesL], .nil⟩
  | m :: ms, qs, hq => by
    simp only [Param.cloneAll] at hq
    rw [Res.bind_eq_ok] at hq
    obtain ⟨m', hm, hq⟩ := hq
    rw [Res.bind_eq_ok] at hq
    obtain ⟨ms', hms, hq⟩ := hq
    simp at hq; subst hq
    obtain ⟨f1, hf1⟩ := clone_spec m m' hm
    obtain ⟨f2, hf2⟩ := cloneAll_apart ms ms' hms
    refine ⟨max f1 f2, fun f hf h as hd => ?_⟩
    simp only [DenotesL] at hd
    obtain ⟨a, as', rfl, h1, h2⟩ := hd
    obtain ⟨r, hr, hc⟩ := hf1 f (by omega) h a h1
    obtain ⟨rs, hrs, hfr, hlo, hden, hap⟩ := hf2 f (by omega) r.1 as' (DenotesL.mono hc.fr.pre ms as' h2)
    refine ⟨(rs.1, r.2 :: rs.2), ?_, hc.fr.trans hfr, ?_, ?_, ?_⟩
    · rw [cloneAll, hr]
      simp [hrs]
    · have l1 := hc.fr.pre.length_le
      have l2 := hfr.pre.length_le
      intro y hy
      simp at hy
      rcases hy with rfl | hy
      · exact ⟨hc.lo, lt_of_lt_of_le hc.hi l2⟩
      · have := hlo y hy
        exact ⟨by omega, this.2⟩
    · simp only [DenotesL]
      exact ⟨r.2, rs.2, rfl, Denotes.mono hfr.pre m' r.2 hc.den, hden⟩
    · refine .cons ?_ hap
      intro y hy z hz1 hz2
      have := reach_below hc.fr hfr.pre hc.lo hc.hi hz1
      have := hfr.reach (hlo y hy).1 (hlo y hy).2 hz2
      omega

/-- Reachability depends only on the objects on the way. -/
theorem reach_congr {h h' : List (Cell R)} {x z : Nat} (hk : ∀ y, Reach h x y → h'[y]? = h[y]?) (hz : Reach h' x z) : Reach h x z := by
  induction hz with
  | refl => exact .refl
  | step _ hc hy ih => rw [hk _ ih] at hc; exact .step ih hc hy

/-- **C130** (`Initialize`).  Whatever tree of parameters each pointer leads to, and also when the same pointer is given several times: the composite gets
members with the same states, which are new objects – nothing the caller can reach through any pointer it had leads to them –, are pairwise without common
parts, and every object that existed before, except the composite itself, is left as it was. -/
theorem C130_initialize (ms qs : List (Param R)) (t : Nat) (hq : Param.cloneAll ms = .ok qs) (ht : Param.totalSize qs = .ok t) :
    ∃ f0, ∀ f, f0 ≤ f → ∀ (h : List (Cell R)) (a : Nat) (as old : List Nat), Closed h → h[a]? = some (.comp ConstSize.new false old) → DenotesL h ms as →
      ∃ h' xs, initMembers f h a as = .ok h' ∧ Owns h' a ⟨true, t⟩ xs ∧ Denotes h' (.comp ⟨true, t⟩ true qs) a ∧
        (∀ y, y < h.length → y ≠ a → h'[y]? = h[y]?) ∧
        (∀ x ∈ xs, ∀ y, y < h.length → ¬ Reach h y a → Disjoint h' x y) := by
  obtain ⟨f0, hf0⟩ := cloneAll_apart ms qs hq
  refine ⟨f0, fun f hf h a as old hcl ha hd => ?_⟩
  obtain ⟨r, hr, hfr, hlo, hden, hap⟩ := hf0 f hf h as hd
  have hal : a < h.length := (List.getElem?_eq_some_iff.1 ha).1
  have hlen := hfr.pre.length_le
  have keep : ∀ y, y ≠ a → (r.1.set a (.comp ⟨true, t⟩ true r.2))[y]? = r.1[y]? := fun y hy => by
    rw [List.getElem?_set_ne (Ne.symm hy)]
  have hreach : ∀ x ∈ r.2, ∀ z, Reach (r.1.set a (.comp ⟨true, t⟩ true r.2)) x z → Reach r.1 x z := by
    intro x hx z hz
    refine reach_congr (fun y hy => keep y ?_) hz
    have := hfr.reach (hlo x hx).1 (hlo x hx).2 hy
    omega
  have hnew : ∀ x ∈ r.2, ∀ z, Reach (r.1.set a (.comp ⟨true, t⟩ true r.2)) x z → h.length ≤ z ∧ z < r.1.length := fun x hx z hz =>
    hfr.reach (hlo x hx).1 (hlo x hx).2 (hreach x hx z hz)
  have here : (r.1.set a (.comp ⟨true, t⟩ true r.2))[a]? = some (.comp ⟨true, t⟩ true r.2) := by
    rw [List.getElem?_set_self (by omega)]
  refine ⟨r.1.set a (.comp ⟨true, t⟩ true r.2), r.2, ?_, ⟨here, ?_, ?_⟩, ?_, ?_, ?_⟩
  · unfold initMembers
    rw [ha]
    simp [hr, total_of_denotes qs r.2 hden, ht, ConstSize.set, ConstSize.new]
  · intro x hx z hz
    have := hnew x hx z hz
    rw [List.length_set]
    omega
  · refine hap.imp_of_mem ?_
    intro x y hx hy hxy z h1 h2
    exact hxy z (hreach x hx z h1) (hreach y hy z h2)
  · simp only [Denotes]
    refine ⟨r.2, here, denotesL_congr qs r.2 (fun y hy x hx => keep x ?_) hden⟩
    have := hfr.reach (hlo y hy).1 (hlo y hy).2 hx
    omega
  · intro y hy hya
    rw [keep y hya]
    obtain ⟨s, hs⟩ := hfr.pre
    rw [← hs, List.getElem?_append_left hy]
  · intro x hx y hy hya z h1 h2
    have h1 := hnew x hx z h1
    have key : ∀ u, Reach (r.1.set a (.comp ⟨true, t⟩ true r.2)) y u → u < h.length ∧ Reach h y u := by
      intro u hu
      induction hu with
      | refl => exact ⟨hy, .refl⟩
      | @step u v c _ hc hv ih =>
        have hua : u ≠ a := by rintro rfl; exact hya ih.2
        rw [keep u hua] at hc
        obtain ⟨s, hs⟩ := hfr.pre
        rw [← hs, List.getElem?_append_left ih.1] at hc
        exact ⟨hcl _ _ _ hc hv, .step ih.2 hc hv⟩
    have := key z h2
    omega

/-- **C130** (`Initialize(sample, n)`).  The composite gets `n` members with the state of the sample's clone, new and without common parts, and the sample is left
as it was. -/
theorem C130_sample (p q : Param R) (n t : Nat) (hq : p.clone = .ok q) (ht : Param.totalSize (List.replicate n q) = .ok t) :
    ∃ f0, ∀ f, f0 ≤ f → ∀ (h : List (Cell R)) (a sa : Nat) (old : List Nat), Closed h → h[a]? = some (.comp ConstSize.new false old) → Denotes h p sa →
      ∃ h' xs, initializeSample f h a sa n = .ok h' ∧ Owns h' a ⟨true, t⟩ xs ∧ xs.length = n ∧ (∀ x ∈ xs, Denotes h' q x) ∧
        (∀ y, y < h.length → y ≠ a → h'[y]? = h[y]?) ∧
        (∀ x ∈ xs, ∀ y, y < h.length → ¬ Reach h y a → Disjoint h' x y) := by
  have hqs : Param.cloneAll (List.replicate n p) = .ok (List.replicate n q) := by
    clear ht
    induction n with
    | zero => rfl
    | succ n ih => simp [List.replicate_succ, Param.cloneAll, hq, ih]
  obtain ⟨f0, hf0⟩ := C130_initialize _ _ t hqs ht
  refine ⟨f0, fun f hf h a sa old hcl ha hd => ?_⟩
  have hl : DenotesL h (List.replicate n p) (List.replicate n sa) := by
    clear hqs ht hf0
    induction n with
    | zero => simp [DenotesL]
    | succ n ih => exact ⟨sa, List.replicate n sa, rfl, hd, ih⟩
  obtain ⟨h', xs, h1, ho, hden, hk, hdj⟩ := hf0 f hf h a _ old hcl ha hl
  simp only [Denotes, ho.here, Option.some.injEq, Cell.comp.injEq, true_and] at hden
  obtain ⟨_, rfl, h2⟩ := hden
  rw [denotesL_iff, List.forall₂_iff_get] at h2
  obtain ⟨hlen, h2⟩ := h2
  refine ⟨h', xs, h1, ho, by simpa using hlen.symm, fun x hx => ?_, hk, hdj⟩
  obtain ⟨i, hi, rfl⟩ := List.getElem_of_mem hx
  simpa using h2 i (by omega) hi

/-! ## What `GetParameter` shares -/

/-- **C130** (`GetParameter`).  It returns the member itself, the same one in every call. -/
theorem C130_getParameter {h : List (Cell R)} {a : Nat} {cs : ConstSize} {xs : List Nat} (ho : Owns h a cs xs) (i : Nat) :
    (∀ hi : i < xs.length, getParameter h a i = .ok xs[i]) ∧ (xs.length ≤ i → getParameter h a i = .throw "out_of_range") := by
  constructor
  · intro hi; simp [getParameter, ho.here, hi]
  · intro hi; simp [getParameter, ho.here, hi]

theorem Client.reach {x : Nat} {h h' : List (Cell R)} (c : Client x h h') {z : Nat} (hz : Reach h' x z) :
    Reach h x z ∨ (h.length ≤ z ∧ z < h'.length) := by
  induction hz with
  | refl => exact .inl .refl
  | step _ hc hy ih =>
    refine c.closed _ _ _ (fun hl => ?_) hc hy
    rcases ih with ih | ih
    · exact ih
    · omega

theorem Owns.pair {h : List (Cell R)} {a : Nat} {cs : ConstSize} {xs : List Nat} (ho : Owns h a cs xs) {i j : Nat} (hi : i < xs.length)
    (hj : j < xs.length) (hne : i ≠ j) : Disjoint h xs[i] xs[j] := by
  have := List.pairwise_iff_getElem.1 ho.apart
  rcases Nat.lt_or_gt_of_ne hne with h1 | h1
  · exact this i j hi hj h1
  · exact fun z h2 h3 => this j i hj hi h1 z h3 h2

/-- One action through a member: the other members' parts are untouched, and the composite still owns its members. -/
theorem Owns.client {h h' : List (Cell R)} {a : Nat} {cs : ConstSize} {xs : List Nat} (ho : Owns h a cs xs) {i : Nat} (hi : i < xs.length)
    (c : Client xs[i] h h') :
    Owns h' a cs xs ∧ ∀ j (hj : j < xs.length), j ≠ i → ∀ z, Reach h xs[j] z → h'[z]? = h[z]? := by
  have hal : a < h.length := (List.getElem?_eq_some_iff.1 ho.here).1
  have keep : ∀ j (hj : j < xs.length), j ≠ i → ∀ z, Reach h xs[j] z → h'[z]? = h[z]? := fun j hj hne z hz =>
    c.frame z (ho.valid _ (List.getElem_mem hj) z hz).1 (fun h2 => ho.pair hj hi hne z hz h2)
  have hra : ∀ j (hj : j < xs.length), j ≠ i → ∀ z, Reach h' xs[j] z → Reach h xs[j] z := fun j hj hne z hz => reach_congr (keep j hj hne) hz
  refine ⟨⟨?_, ?_, ?_⟩, keep⟩
  · rw [c.frame a hal (fun h2 => (ho.valid _ (List.getElem_mem hi) a h2).2 rfl)]
    exact ho.here
  · intro x hx z hz
    obtain ⟨j, hj, rfl⟩ := List.getElem_of_mem hx
    by_cases hji : j = i
    · subst hji
      rcases c.reach hz with h1 | h1
      · have := ho.valid _ hx z h1
        exact ⟨lt_of_lt_of_le this.1 c.grows, this.2⟩
      · exact ⟨h1.2, by omega⟩
    · have := ho.valid _ hx z (hra j hj hji z hz)
      exact ⟨lt_of_lt_of_le this.1 c.grows, this.2⟩
  · rw [List.pairwise_iff_getElem]
    intro j k hj hk hjk z h1 h2
    by_cases hji : j = i
    · subst hji
      have h2 := hra k hk (by omega) z h2
      rcases c.reach h1 with h1 | h1
      · exact ho.pair hj hk (by omega) z h1 h2
      · have := (ho.valid _ (List.getElem_mem hk) z h2).1
        omega
    · have h1 := hra j hj hji z h1
      by_cases hki : k = i
      · subst hki
        rcases c.reach h2 with h2 | h2
        · exact ho.pair hj hk (by omega) z h1 h2
        · have := (ho.valid _ (List.getElem_mem hj) z h1).1
          omega
      · exact ho.pair hj hk (by omega) z h1 (hra k hk hki z h2)

/-- **C130** (a change through the pointer is a change of the composite).  When code does anything at all through the pointer `GetParameter(i)` returned and
the object is then `q`, the composite is the same composite with `q` for its `i`-th member, and still owns its members. -/
theorem C130_shared {h h' : List (Cell R)} {a : Nat} {cs : ConstSize} {xs : List Nat} (ho : Owns h a cs xs) (ps : List (Param R))
    (hd : Denotes h (.comp cs true ps) a) (i x : Nat) (hx : getParameter h a i = .ok x) (c : Client x h h') (q : Param R) (hq : Denotes h' q x) :
    Owns h' a cs xs ∧ Denotes h' (.comp cs true (ps.set i q)) a := by
  have hi : i < xs.length := by
    by_contra hn
    rw [(C130_getParameter ho i).2 (by omega)] at hx
    simp at hx
  rw [(C130_getParameter ho i).1 hi] at hx
  cases hx
  obtain ⟨ho', keep⟩ := ho.client hi c
  refine ⟨ho', ?_⟩
  simp only [Denotes] at hd ⊢
  obtain ⟨as, h1, h2⟩ := hd
  rw [ho.here] at h1
  cases h1
  refine ⟨xs, ho'.here, ?_⟩
  rw [denotesL_iff, List.forall₂_iff_get] at h2 ⊢
  obtain ⟨hl, h2⟩ := h2
  refine ⟨by simpa using hl, fun j hj1 hj2 => ?_⟩
  simp only [List.get_eq_getElem, List.getElem_set]
  split
  · next hij => subst hij; exact hq
  · next hij => exact denotes_congr _ _ (keep j hj2 (Ne.symm hij)) (h2 j (by simpa using hj1) hj2)

/-- **C130** (histories).  However often and in whatever order code uses pointers it got from `GetParameter`, the composite still owns the same members, a
pointer got before is still the one `GetParameter` returns, and a member that was not used has not changed. -/
theorem C130_history {h h' : List (Cell R)} {a : Nat} {is : List Nat} (hu : Uses a is h h') {cs : ConstSize} {xs : List Nat} (ho : Owns h a cs xs) :
    Owns h' a cs xs ∧ (∀ i, getParameter h' a i = getParameter h a i) ∧
      ∀ i x p, i ∉ is → getParameter h a i = .ok x → Denotes h p x → Denotes h' p x := by
  have same : ∀ {g g' : List (Cell R)}, Owns g a cs xs → Owns g' a cs xs → ∀ i, getParameter g' a i = getParameter g a i := by
    intro g g' o o' i
    simp [getParameter, o.here, o'.here]
  suffices hs : Owns h' a cs xs ∧ ∀ i x p, i ∉ is → getParameter h a i = .ok x → Denotes h p x → Denotes h' p x from
    ⟨hs.1, same ho hs.1, hs.2⟩
  induction hu with
  | nil h => exact ⟨ho, fun _ _ _ _ _ hd => hd⟩
  | @cons i is h h1 h2 x hx c _ ih =>
    have hi : i < xs.length := by
      by_contra hn
      rw [(C130_getParameter ho i).2 (by omega)] at hx
      simp at hx
    rw [(C130_getParameter ho i).1 hi] at hx
    cases hx
    obtain ⟨ho1, keep⟩ := ho.client hi c
    obtain ⟨ho2, hrest⟩ := ih ho1
    refine ⟨ho2, fun j y p hj hy hd => ?_⟩
    simp only [List.mem_cons, not_or] at hj
    refine hrest j y p hj.2 (by rw [same ho ho1]; exact hy) ?_
    have hjl : j < xs.length := by
      by_contra hn
      rw [(C130_getParameter ho j).2 (by omega)] at hy
      simp at hy
    rw [(C130_getParameter ho j).1 hjl] at hy
    cases hy
    exact denotes_congr _ _ (keep j hjl hj.1) hd

/-- **C130** (a change of the composite is seen through the pointer).  Whatever happens to the heap, while the composite has its members the object at a pointer
that `GetParameter(i)` returned has the state of the composite's `i`-th member. -/
theorem C130_seen {h h' : List (Cell R)} {a : Nat} {cs : ConstSize} {xs : List Nat} (ho : Owns h a cs xs) (ho' : h'[a]? = some (.comp cs true xs))
    (ps : List (Param R)) (hd : Denotes h' (.comp cs true ps) a) (i x : Nat) (hx : getParameter h a i = .ok x) : ∃ p, ps[i]? = some p ∧ Denotes h' p x := by
  have hi : i < xs.length := by
    by_contra hn
    rw [(C130_getParameter ho i).2 (by omega)] at hx
    simp at hx
  rw [(C130_getParameter ho i).1 hi] at hx
  cases hx
  simp only [Denotes] at hd
  obtain ⟨as, h1, h2⟩ := hd
  rw [ho'] at h1
  cases h1
  rw [denotesL_iff, List.forall₂_iff_get] at h2
  obtain ⟨hl, h2⟩ := h2
  exact ⟨ps[i], by simp, h2 i (by omega) hi⟩

/-! ## The hypotheses can be met -/

/-- `Initialize(sample, 2)` with an integer parameter, then a change of one member through its pointer. -/
example : ∃ (h' h'' : List (Cell ℚ)) (x : Nat) (f : Nat),
    initializeSample f [.int ⟨⟨true, 3⟩, 4, 0, 8⟩, .comp ConstSize.new false []] 1 0 2 = .ok h' ∧
    getParameter h' 1 1 = .ok x ∧ Client x h' h'' ∧
    Denotes h'' (.comp ⟨true, 6⟩ true [.int ⟨⟨true, 3⟩, 4, 0, 8⟩, .int ⟨⟨true, 3⟩, 7, 0, 8⟩]) 1 := by
  have hi : IntParam.countChromosomeSize 0 8 = .ok 3 := by
    have := DblParam.count_pow 3 (by norm_num); simpa using this
  have hcl : (⟨⟨true, 3⟩, 4, 0, 8⟩ : IntParam).clone = .ok ⟨⟨true, 3⟩, 4, 0, 8⟩ := by
    have := Param.C15_clone_equal (R := ℚ) (.int ⟨⟨true, 3⟩, 4, 0, 8⟩) 3 (by unfold Param.WFP; exact ⟨rfl, hi, by norm_num [IsInt]⟩)
    simp only [Param.clone, Res.bind_eq_ok] at this
    obtain ⟨p, h1, h2⟩ := this
    simp at h2; rw [h1, h2]
  obtain ⟨f0, hf0⟩ := C130_initialize (R := ℚ) [.int ⟨⟨true, 3⟩, 4, 0, 8⟩, .int ⟨⟨true, 3⟩, 4, 0, 8⟩] [.int ⟨⟨true, 3⟩, 4, 0, 8⟩, .int ⟨⟨true, 3⟩, 4, 0, 8⟩] 6
    (by simp [Param.cloneAll, Param.clone, hcl]) (by simp [Param.totalSize, Param.chromosomeSize, ConstSize.get])
  obtain ⟨h', xs, h1, ho, hd, _⟩ := hf0 f0 (le_refl _) [.int ⟨⟨true, 3⟩, 4, 0, 8⟩, .comp ConstSize.new false []] 1 [0, 0] [] (by
      intro x c y hx hy
      match x, hx with
      | 0, hx => simp at hx; subst hx; simp [Cell.ptrs] at hy
      | 1, hx => simp at hx; subst hx; simp [Cell.ptrs] at hy
      | n + 2, hx => simp at hx) rfl (by simp [DenotesL, Denotes])
  have hd' := hd
  simp only [Denotes, ho.here, Option.some.injEq, Cell.comp.injEq, true_and] at hd'
  obtain ⟨_, rfl, h2⟩ := hd'
  simp only [DenotesL, Denotes] at h2
  obtain ⟨x0, _, rfl, _, x1, _, rfl, hx1, rfl⟩ := h2
  have hg : getParameter h' 1 1 = .ok x1 := (C130_getParameter ho 1).1 (by simp)
  have hc : Client x1 h' (h'.set x1 (.int ⟨⟨true, 3⟩, 7, 0, 8⟩)) := client_overwrite h' x1 x1 _ _ .refl hx1 (by simp [Cell.ptrs])
  have hlen : x1 < h'.length := (List.getElem?_eq_some_iff.1 hx1).1
  exact ⟨h', _, x1, f0, h1, hg, hc, (C130_shared ho _ hd 1 x1 hg hc (.int ⟨⟨true, 3⟩, 7, 0, 8⟩) (by simp [Denotes, hlen])).2⟩

end K52.Heap
