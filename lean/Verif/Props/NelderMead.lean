import Verif.Lemmas.NelderMead
import Mathlib.Data.Rat.Floor
import Mathlib.Tactic.NormNum
import Mathlib.Analysis.Real.Sqrt
import Mathlib.Algebra.BigOperators.Group.Finset.Basic
import Mathlib.Algebra.BigOperators.Ring.Finset
import Mathlib.Algebra.BigOperators.Intervals

/-!
# Properties C42–C45 and C64: Nelder-Mead

`g` is the function being minimized (the user's function or its negation, C47).  `Prog.trace` lists the points at which an algorithm asks
for the function's value.
-/

set_option linter.unusedSectionVars false

namespace K52.NelderMead
variable {R : Type} [Field R] [LinearOrder R] [IsStrictOrderedRing R]

/-! ### C43: indices -/

/-- **C43.** From two values on, `GetIndexes` finds the positions of a largest value, of a largest among the others, and of the first
smallest; the largest is distinct from the other two.  With fewer than two values it throws. -/
theorem C43_indexes (values : List R) :
    (values.length < 2 → (getIndexes values).threw) ∧
    (2 ≤ values.length → ∃ s, getIndexes values = .ok s ∧ s.first ≠ s.second ∧ s.first ≠ s.min ∧
      ∃ hf : s.first < values.length, ∃ hs : s.second < values.length, ∃ hm : s.min < values.length,
        ∀ (k : Nat) (hk : k < values.length), values[k] ≤ values[s.first] ∧ values[s.min] ≤ values[k] ∧
          (k ≠ s.first → values[k] ≤ values[s.second]) ∧ (k < s.min → values[s.min] < values[k])) := by
  constructor
  · intro h
    match values, h with
    | [], _ => trivial
    | [_], _ => trivial
  · intro h
    obtain ⟨s, e, h1, h2, h3, h4, h5, h6⟩ := getIndexes_spec h
    obtain ⟨hf, e1⟩ := List.getElem?_eq_some_iff.1 h1
    obtain ⟨hs, e2⟩ := List.getElem?_eq_some_iff.1 h2
    obtain ⟨hm, e3⟩ := List.getElem?_eq_some_iff.1 h3
    refine ⟨s, e, h4, h5, hf, hs, hm, fun k hk => ?_⟩
    rw [e1, e2, e3]
    exact h6 k _ (List.getElem?_eq_getElem hk)

/-- Non-vacuity: largest at 2, second largest at 4, smallest at 1. -/
example : getIndexes [3, (1 : ℚ), 9, 1, 5] = .ok ⟨2, 9, 4, 5, 1, 1⟩ := by decide +kernel

/-! ### C42: bounds -/

/-- **C42 (projection).** Projecting leaves points within the bounds alone, brings every other point within the bounds (when they are
ordered), keeps the dimension and is idempotent; every coordinate becomes the nearest number within the bounds. -/
theorem C42_projection (cfg : Config R) (hb : cfg.lower ≤ cfg.upper) (p : List R) :
    InBounds cfg (project cfg p) ∧ (InBounds cfg p → project cfg p = p) ∧ (project cfg p).length = p.length ∧
    project cfg (project cfg p) = project cfg p ∧
    ∀ (i : Nat) x y, p[i]? = some x → (project cfg p)[i]? = some y →
      ∀ z, cfg.lower ≤ z → z ≤ cfg.upper → |x - y| ≤ |x - z| := by
  refine ⟨project_in cfg hb p, project_id cfg, project_length cfg p, project_id cfg (project_in cfg hb p), ?_⟩
  intro i x y hx hy z h1 h2
  simp only [project, List.getElem?_map, hx, Option.map_some, Option.some.injEq] at hy
  subst hy
  split
  · next h => rw [abs_of_pos (by linarith), abs_of_pos (by linarith)]; linarith
  · split
    · next h => rw [abs_of_neg (by linarith), abs_of_neg (by linarith)]; linarith
    · simp

example : project ⟨1, 1, -2, (2 : ℚ)⟩ [5, 1, -7] = [2, 1, -2] := by decide +kernel

/-- What one iteration does to a polygon of `n + 1` vertices. -/
structure Iteration (g : List R → R) (cfg : Config R) (n : Nat) (polygon : List (List R)) (values : List R)
    (polygon' : List (List R)) (values' : List R) : Prop where
  eval : (body cfg polygon values).eval g = .ok (polygon', values')
  shape : Shape n polygon' values'
  below : Below values' values
  asked : 1 ≤ ((body cfg polygon values).trace g).length ∧ ((body cfg polygon values).trace g).length ≤ 2
  dims : ∀ x ∈ (body cfg polygon values).trace g, x.length = n
  first_in : cfg.lower ≤ cfg.upper → ∀ x, ((body cfg polygon values).trace g)[0]? = some x → InBounds cfg x
  inside : cfg.lower ≤ cfg.upper → (∀ p ∈ polygon, InBounds cfg p) →
    (∀ p ∈ polygon', InBounds cfg p) ∧ ∀ x ∈ (body cfg polygon values).trace g, InBounds cfg x
  minTrue : MinTrue g polygon values → MinTrue g polygon' values'

theorem body_spec (g : List R → R) (cfg : Config R) {n : Nat} {polygon : List (List R)} {values : List R} (h : Shape n polygon values) :
    ∃ polygon' values', Iteration g cfg n polygon values polygon' values' := by
  obtain ⟨s, es, hs⟩ := getIndexes_spec (values := values) (by rw [h.vals]; have := h.pos; omega)
  obtain ⟨g1, g2, g3, g4, g5, g6⟩ := id hs
  have hl : s.first < values.length := (List.getElem?_eq_some_iff.1 g1).1
  have hlm : s.min < values.length := (List.getElem?_eq_some_iff.1 g3).1
  have hlp : s.first < polygon.length := by rw [h.count, ← h.vals]; exact hl
  have hlmp : s.min < polygon.length := by rw [h.count, ← h.vals]; exact hlm
  have hlen : polygon.length = values.length := by rw [h.count, h.vals]
  obtain ⟨c, ec, hc, hcin⟩ := centerOfMass_spec h hlp
  have ew : polygon[s.first]? = some polygon[s.first] := List.getElem?_eq_getElem hlp
  set worst := polygon[s.first] with hw
  have hwl : worst.length = n := h.dim _ (List.getElem_mem hlp)
  set reflected := project cfg (reflexion c worst) with hr
  have hrl : reflected.length = n := by rw [hr, project_length]; simp [reflexion, hc, hwl]
  set expanded := project cfg (expansion c reflected) with hex
  have hexl : expanded.length = n := by rw [hex, project_length]; simp [expansion, hc, hrl]
  have hrin : cfg.lower ≤ cfg.upper → InBounds cfg reflected := fun hb => project_in cfg hb _
  have hexin : cfg.lower ≤ cfg.upper → InBounds cfg expanded := fun hb => project_in cfg hb _
  have hmf : s.minV ≤ s.firstV := (g6 _ _ g1).2.1
  have hsf : s.secondV ≤ s.firstV := (g6 _ _ g2).1
  by_cases c1 : g reflected < s.minV
  · by_cases c2 : g expanded < g reflected
    · have hev : (body cfg polygon values).eval g = .ok (polygon.set s.first expanded, values.set s.first (g expanded)) := by
        simp [body, es, ec, ew, Prog.lift, Prog.askMin, ← hr, ← hex, c1, c2, Prog.eval]
      have htr : (body cfg polygon values).trace g = [reflected, expanded] := by
        simp [body, es, ec, ew, Prog.lift, Prog.askMin, ← hr, ← hex, c1, c2, Prog.trace]
      refine ⟨_, _, hev, h.set hexl, Below.set g1 (c2.le.trans (c1.le.trans hmf)), by simp [htr], ?_, ?_, ?_, fun hm => hm.set hlen hs _⟩
      · simp [htr, hrl, hexl]
      · intro hb x hx; simp [htr] at hx; subst hx; exact hrin hb
      · intro hb hin
        refine ⟨forall_set hin (hexin hb), ?_⟩
        simp [htr, hrin hb, hexin hb]
    · have hev : (body cfg polygon values).eval g = .ok (polygon.set s.first reflected, values.set s.first (g reflected)) := by
        simp [body, es, ec, ew, Prog.lift, Prog.askMin, ← hr, ← hex, c1, c2, Prog.eval]
      have htr : (body cfg polygon values).trace g = [reflected, expanded] := by
        simp [body, es, ec, ew, Prog.lift, Prog.askMin, ← hr, ← hex, c1, c2, Prog.trace]
      refine ⟨_, _, hev, h.set hrl, Below.set g1 (c1.le.trans hmf), by simp [htr], ?_, ?_, ?_, fun hm => hm.set hlen hs _⟩
      · simp [htr, hrl, hexl]
      · intro hb x hx; simp [htr] at hx; subst hx; exact hrin hb
      · intro hb hin
        refine ⟨forall_set hin (hrin hb), ?_⟩
        simp [htr, hrin hb, hexin hb]
  · by_cases c2 : g reflected ≤ s.secondV
    · have hev : (body cfg polygon values).eval g = .ok (polygon.set s.first reflected, values.set s.first (g reflected)) := by
        simp [body, es, ec, ew, Prog.lift, Prog.askMin, ← hr, c1, c2, Prog.eval]
      have htr : (body cfg polygon values).trace g = [reflected] := by
        simp [body, es, ec, ew, Prog.lift, Prog.askMin, ← hr, c1, c2, Prog.trace]
      refine ⟨_, _, hev, h.set hrl, Below.set g1 (c2.trans hsf), by simp [htr], ?_, ?_, ?_, fun hm => hm.set hlen hs _⟩
      · simp [htr, hrl]
      · intro hb x hx; simp [htr] at hx; subst hx; exact hrin hb
      · intro hb hin
        refine ⟨forall_set hin (hrin hb), ?_⟩
        simp [htr, hrin hb]
    · push Not at c2
      -- the polygon and values after the possible replacement of the worst vertex by the reflected one
      obtain ⟨P, V, w, T, hP, hV, hT, hsh, hbel, hTl, hTin, hPin, hVf, hVo, hmt, hws⟩ : ∃ (P : List (List R)) (V : List R) (w : R) (T : List R),
          P = (if decide (g reflected < s.firstV) then polygon.set s.first reflected else polygon) ∧
          V = (if decide (g reflected < s.firstV) then values.set s.first (g reflected) else values) ∧
          T = contraction c (if decide (g reflected < s.firstV) then reflected else worst) ∧
          Shape n P V ∧ Below V values ∧ T.length = n ∧
          (cfg.lower ≤ cfg.upper → (∀ p ∈ polygon, InBounds cfg p) → InBounds cfg T) ∧
          (cfg.lower ≤ cfg.upper → (∀ p ∈ polygon, InBounds cfg p) → ∀ p ∈ P, InBounds cfg p) ∧
          V[s.first]? = some w ∧ w = (if decide (g reflected < s.firstV) then g reflected else s.firstV) ∧
          (MinTrue g polygon values → MinTrue g P V) ∧
          GoodIdx V ⟨s.first, w, s.second, s.secondV, s.min, s.minV⟩ := by
        by_cases c3 : g reflected < s.firstV
        · refine ⟨_, _, g reflected, _, rfl, rfl, rfl, ?_⟩
          simp only [c3, decide_true, if_true]
          refine ⟨h.set hrl, Below.set g1 c3.le, by simp [contraction, hc, hrl], fun hb hin => contraction_in cfg (hcin cfg hin) (hrin hb),
            fun hb hin => forall_set hin (hrin hb), by simp [hl], trivial, fun hm => hm.set hlen hs _, ?_⟩
          refine ⟨by simp [hl], by simp only [List.getElem?_set_ne g4]; exact g2, by simp only [List.getElem?_set_ne g5]; exact g3, g4, g5, ?_⟩
          intro k v hk
          by_cases hkf : k = s.first
          · subst hkf
            obtain rfl : g reflected = v := by simpa [hl] using hk
            exact ⟨le_rfl, not_lt.1 c1, fun hn => absurd rfl hn, fun _ => lt_of_le_of_lt (g6 _ _ g2).2.1 c2⟩
          · rw [List.getElem?_set_ne (fun e => hkf e.symm)] at hk
            obtain ⟨a1, a2, a3, a4⟩ := g6 k v hk
            exact ⟨(a3 hkf).trans c2.le, a2, a3, a4⟩
        · refine ⟨_, _, s.firstV, _, rfl, rfl, rfl, ?_⟩
          simp only [c3, decide_false, Bool.false_eq_true, if_false]
          exact ⟨h, Below.refl _, by simp [contraction, hc, hwl],
            fun hb hin => contraction_in cfg (hcin cfg hin) (hin _ (List.getElem_mem hlp)), fun hb hin => hin, g1, trivial, id, hs⟩
      obtain ⟨w1, w2, w3, w4, w5, w6⟩ := id hws
      simp only at w1 w2 w3 w4 w5 w6
      have hPl : P.length = V.length := by rw [hsh.count, hsh.vals]
      by_cases c4 : g T > w
      · obtain ⟨P', eP', hsh', hfix, hPin'⟩ := reduction_spec hsh (i := s.min) (by rw [hPl]; exact (List.getElem?_eq_some_iff.1 w3).1)
        have hev : (body cfg polygon values).eval g = .ok (P', V) := by
          simp [body, es, ec, ew, Prog.lift, Prog.askMin, ← hr, c1, not_le.2 c2, Prog.eval]
          simp only [decide_eq_true_eq] at hP hV hT hVo
          rw [← hP, ← hV, ← hT, ← hVo, if_pos c4, eP']
          rfl
        have htr : (body cfg polygon values).trace g = [reflected, T] := by
          simp [body, es, ec, ew, Prog.lift, Prog.askMin, ← hr, c1, not_le.2 c2, Prog.trace]
          simp only [decide_eq_true_eq] at hP hV hT hVo
          rw [← hP, ← hV, ← hT, ← hVo, if_pos c4, eP']
          exact ⟨rfl, rfl⟩
        refine ⟨_, _, hev, hsh', hbel, by simp [htr], by simp [htr, hrl, hTl], ?_, ?_, ?_⟩
        · intro hb x hx; simp [htr] at hx; subst hx; exact hrin hb
        · intro hb hin
          refine ⟨hPin' cfg (hPin hb hin), by simp [htr, hrin hb, hTin hb hin]⟩
        · intro hm
          exact (hmt hm).reduction w3 (fun k v hk => ⟨(w6 k v hk).2.1, (w6 k v hk).2.2.2⟩) hfix
      · have hev : (body cfg polygon values).eval g = .ok (P.set s.first T, V.set s.first (g T)) := by
          simp [body, es, ec, ew, Prog.lift, Prog.askMin, ← hr, c1, not_le.2 c2, Prog.eval]
          simp only [decide_eq_true_eq] at hP hV hT hVo
          rw [← hP, ← hV, ← hT, ← hVo, if_neg c4]
          rfl
        have htr : (body cfg polygon values).trace g = [reflected, T] := by
          simp [body, es, ec, ew, Prog.lift, Prog.askMin, ← hr, c1, not_le.2 c2, Prog.trace]
          simp only [decide_eq_true_eq] at hP hV hT hVo
          rw [← hP, ← hV, ← hT, ← hVo, if_neg c4]
          exact ⟨rfl, rfl⟩
        refine ⟨_, _, hev, hsh.set hTl, (Below.set w1 (not_lt.1 c4)).trans hbel, by simp [htr], by simp [htr, hrl, hTl], ?_, ?_, ?_⟩
        · intro hb x hx; simp [htr] at hx; subst hx; exact hrin hb
        · intro hb hin
          exact ⟨forall_set (hPin hb hin) (hTin hb hin), by simp [htr, hrin hb, hTin hb hin]⟩
        · intro hm
          exact (hmt hm).set hPl hws _

/-- Non-vacuity: an iteration in the plane that expands. -/
example : (body (R := ℚ) ⟨1, 1, -10, 10⟩ [[0, 0], [1, 0], [0, 1]] [0, -1, -1]).eval (fun v => -v.sum) =
    .ok ([[3 / 2, 3 / 2], [1, 0], [0, 1]], [-3, -1, -1]) := by decide +kernel

/-! ### Polygon comparison -/

/-- Sum of the distances between corresponding coordinates. -/
def rowDist (p q : List R) : R := (List.zipWith (fun x y => |x - y|) p q).sum

/-- The same for polygons. -/
def polyDist (P Q : List (List R)) : R := (List.zipWith rowDist P Q).sum

theorem absolute_eq (x : R) : absolute x = |x| := by
  unfold absolute
  split_ifs with h
  · exact (abs_of_neg h).symm
  · exact (abs_of_nonneg (not_lt.1 h)).symm

theorem tolerance_eq : (tolerance : R) = FloatingPoint.eps := by
  unfold tolerance FloatingPoint.eps
  norm_num

theorem rowDifference_eq : ∀ (p q : List R) (acc : R), p.length = q.length → rowDifference acc p q = .ok (acc + rowDist p q)
  | [], [], acc, _ => by simp [rowDifference, rowDist]
  | x :: p, y :: q, acc, h => by
    simp only [rowDifference]
    rw [rowDifference_eq p q _ (by simpa using h)]
    simp [rowDist, add_assoc, absolute_eq]

/-- `n + 1` rows of `n` numbers. -/
def Polygon (n : Nat) (P : List (List R)) : Prop := P.length = n + 1 ∧ ∀ p ∈ P, p.length = n

theorem polygonDifference_eq (n : Nat) : ∀ (P Q : List (List R)) (acc : R), P.length = Q.length → (∀ p ∈ P, p.length = n) →
    (∀ q ∈ Q, q.length = n) → polygonDifference acc P Q = .ok (acc + polyDist P Q)
  | [], [], acc, _, _, _ => by simp [polygonDifference, polyDist]
  | p :: P, q :: Q, acc, h, hp, hq => by
    simp only [polygonDifference]
    rw [rowDifference_eq p q acc (by rw [hp p (by simp), hq q (by simp)])]
    simp only [Res.ok_bind]
    rw [polygonDifference_eq n P Q _ (by simpa using h) (fun r hr => hp r (by simp [hr])) (fun r hr => hq r (by simp [hr]))]
    simp [polyDist, add_assoc]

theorem sameLoop_eq {n : Nat} {P : List (List R)} (hP : Polygon n P) : ∀ (Qs : List (List (List R))), (∀ Q ∈ Qs, Polygon n Q) →
    ∃ b, sameLoop P Qs = .ok b ∧ (b = true ↔ ∃ Q ∈ Qs, polyDist P Q < FloatingPoint.eps)
  | [], _ => ⟨false, rfl, by simp⟩
  | Q :: Qs, h => by
    have hQ := h Q (by simp)
    obtain ⟨b, e, hb⟩ := sameLoop_eq hP Qs (fun Q' hQ' => h Q' (by simp [hQ']))
    simp only [sameLoop, polygonDifference_eq n P Q 0 (by rw [hP.1, hQ.1]) hP.2 hQ.2, Res.ok_bind, zero_add, tolerance_eq]
    by_cases c : polyDist P Q < FloatingPoint.eps
    · exact ⟨true, by simp [c], by simp [c]⟩
    · refine ⟨b, by simp [c, e], by simp [c, hb]⟩

/-- The remembered polygons all have the dimension `n`, and there are at most 10. -/
def PrevOk (n : Nat) (previous : List (List (List R))) : Prop := previous.length ≤ 10 ∧ ∀ Q ∈ previous, Polygon n Q

theorem Shape.polygon {n : Nat} {P : List (List R)} {V : List R} (h : Shape n P V) : Polygon n P := ⟨h.count, h.dim⟩

theorem goOn_spec (sqrt : R → R) (cfg : Config R) (r : Nat) {n : Nat} {P : List (List R)} {V : List R} (h : Shape n P V)
    {previous : List (List (List R))} (hp : PrevOk n previous) :
    ∃ b previous', goOn sqrt cfg r V P previous = .ok (b, previous') ∧ PrevOk n previous' ∧
      (b = true ↔ r ≤ 1000 * n ∧ (∀ Q ∈ previous, FloatingPoint.eps ≤ polyDist P Q) ∧ cfg.precision < difference sqrt V) ∧
      (r ≤ 1000 * n → P ∈ previous') := by
  unfold goOn
  rw [headD_length h]
  by_cases c : r > 1000 * n
  · rw [if_pos c]
    exact ⟨false, previous, rfl, hp, by simp; intro h; omega, fun h => by omega⟩
  · rw [if_neg c]
    obtain ⟨s, es, hs⟩ := sameLoop_eq h.polygon previous hp.2
    have hprev : PrevOk n ((if previous.length ≥ 10 then previous.tail else previous) ++ [P]) := by
      constructor
      · split
        · have := hp.1; simp; omega
        · simp; omega
      · intro Q hQ
        rw [List.mem_append] at hQ
        rcases hQ with hQ | hQ
        · split at hQ
          · exact hp.2 Q (List.mem_of_mem_tail hQ)
          · exact hp.2 Q hQ
        · simp only [List.mem_singleton] at hQ; subst hQ; exact h.polygon
    simp only [wasSame, es, Res.ok_bind, Res.pure_eq]
    cases s with
    | true =>
      refine ⟨false, _, rfl, hprev, ?_, fun _ => by simp⟩
      simp only [Bool.false_eq_true, false_iff, not_and]
      intro _ hall
      obtain ⟨Q, hQ, hlt⟩ := hs.1 rfl
      exact absurd (hall Q hQ) (not_le.2 hlt)
    | false =>
      refine ⟨_, _, rfl, hprev, ?_, fun _ => by simp⟩
      simp only [Bool.false_eq_true, false_iff, not_exists, not_and, not_lt] at hs
      simp only [gt_iff_lt, decide_eq_true_eq]
      exact ⟨fun hd => ⟨by omega, hs, hd⟩, fun hd => hd.2.2⟩

/-! ### The loop -/

/-- One iteration leads from one polygon with recorded values to another. -/
def Leads (g : List R → R) (cfg : Config R) (a b : List (List R) × List R) : Prop := (body cfg a.1 a.2).eval g = .ok b

/-- Why the loop ends in `F`: too many iterations, or a polygon (almost) equal to one of an earlier call or of this one, or little
difference between the recorded values. -/
def ExitReason (sqrt : R → R) (g : List R → R) (cfg : Config R) (n : Nat) (start : List (List R) × List R) (previous : List (List (List R)))
    (F : Final R) : Prop :=
  F.iterations = 1000 * n + 1 ∨
  (∃ Q, polyDist F.polygon Q < FloatingPoint.eps ∧ (Q ∈ previous ∨ ∃ V, Relation.TransGen (Leads g cfg) start (Q, V))) ∨
  difference sqrt F.values ≤ cfg.precision

structure Run (sqrt : R → R) (g : List R → R) (cfg : Config R) (n : Nat) (r : Nat) (P : List (List R)) (V : List R)
    (previous : List (List (List R))) (T : List (List R)) (F : Final R) : Prop where
  shape : Shape n F.polygon F.values
  below : Below F.values V
  prev : PrevOk n F.previous
  mem_prev : F.iterations ≤ 1000 * n → F.polygon ∈ F.previous
  first : r < F.iterations
  limit : F.iterations ≤ 1000 * n + 1
  asked : T.length ≤ 2 * (F.iterations - r)
  dims : ∀ x ∈ T, x.length = n
  inside : cfg.lower ≤ cfg.upper → (∀ p ∈ P, InBounds cfg p) → (∀ p ∈ F.polygon, InBounds cfg p) ∧ ∀ x ∈ T, InBounds cfg x
  minTrue : MinTrue g P V → MinTrue g F.polygon F.values
  reached : Relation.TransGen (Leads g cfg) (P, V) (F.polygon, F.values)
  exit : ExitReason sqrt g cfg n (P, V) previous F

theorem loop_spec (sqrt : R → R) (g : List R → R) (cfg : Config R) {n : Nat} : ∀ (fuel r : Nat) (P : List (List R)) (V : List R)
    (previous : List (List (List R))), Shape n P V → PrevOk n previous → r ≤ 1000 * n → 1000 * n + 1 ≤ r + fuel →
    ∃ F, (loop sqrt cfg fuel r P V previous).eval g = .ok F ∧
      Run sqrt g cfg n r P V previous ((loop sqrt cfg fuel r P V previous).trace g) F
  | 0, r, _, _, _, _, _, hr, hf => by omega
  | fuel + 1, r, P, V, previous, hs, hp, hr, hf => by
    obtain ⟨P', V', hit⟩ := body_spec g cfg hs
    obtain ⟨b, prev', eg, hp', hb, hmem⟩ := goOn_spec sqrt cfg (r + 1) hit.shape hp
    have step : Relation.TransGen (Leads g cfg) (P, V) (P', V') := .single hit.eval
    cases b with
    | false =>
      have hev : (loop sqrt cfg (fuel + 1) r P V previous).eval g = .ok ⟨P', V', prev', r + 1⟩ := by
        simp only [loop, Prog.eval_bind, hit.eval, Res.ok_bind, Prog.eval_lift, eg]
        rfl
      have htr : (loop sqrt cfg (fuel + 1) r P V previous).trace g = (body cfg P V).trace g := by
        simp only [loop, Prog.trace_bind, hit.eval, Prog.eval_lift, eg, Prog.trace_lift]
        simp
      refine ⟨_, hev, ?_⟩
      rw [htr]
      refine ⟨hit.shape, hit.below, hp', hmem, by simp, by simp only; omega, ?_, hit.dims, hit.inside, hit.minTrue, step, ?_⟩
      · have := hit.asked.2; simp only; omega
      · by_cases c1 : r + 1 ≤ 1000 * n
        · by_cases c2 : ∀ Q ∈ previous, FloatingPoint.eps ≤ polyDist P' Q
          · right; right
            by_contra c3
            have := hb.2 ⟨c1, c2, not_le.1 c3⟩
            simp at this
          · push Not at c2
            obtain ⟨Q, hQ, hlt⟩ := c2
            right; left
            exact ⟨Q, hlt, Or.inl hQ⟩
        · left; simp only; omega
    | true =>
      obtain ⟨c1, c2, c3⟩ := hb.1 rfl
      obtain ⟨F, ev, hrun⟩ := loop_spec sqrt g cfg fuel (r + 1) P' V' prev' hit.shape hp' c1 (by omega)
      have hev : (loop sqrt cfg (fuel + 1) r P V previous).eval g = .ok F := by
        simp only [loop, Prog.eval_bind, hit.eval, Res.ok_bind, Prog.eval_lift, eg]
        exact ev
      have htr : (loop sqrt cfg (fuel + 1) r P V previous).trace g =
          (body cfg P V).trace g ++ (loop sqrt cfg fuel (r + 1) P' V' prev').trace g := by
        simp only [loop, Prog.trace_bind, hit.eval, Prog.eval_lift, eg, Prog.trace_lift]
        simp
      refine ⟨F, hev, ?_⟩
      rw [htr]
      have hprev : ∀ Q ∈ prev', Q ∈ previous ∨ Q = P' := by
        have e := eg
        unfold goOn at e
        rw [headD_length hit.shape, if_neg (by omega)] at e
        obtain ⟨sb, es, _⟩ := sameLoop_eq hit.shape.polygon previous hp.2
        simp only [wasSame, es, Res.ok_bind, Res.pure_eq] at e
        have e2 : prev' = (if previous.length ≥ 10 then previous.tail else previous) ++ [P'] := by
          split at e
          · simp at e
          · simp only [Res.ok.injEq, Prod.mk.injEq] at e; exact e.2.symm
        intro Q hQ
        rw [e2, List.mem_append] at hQ
        rcases hQ with hQ | hQ
        · left
          split at hQ
          · exact List.mem_of_mem_tail hQ
          · exact hQ
        · right; simpa using hQ
      refine ⟨hrun.shape, hrun.below.trans hit.below, hrun.prev, hrun.mem_prev, by have := hrun.first; omega, hrun.limit, ?_, ?_, ?_, fun hm => hrun.minTrue (hit.minTrue hm),
        step.trans hrun.reached, ?_⟩
      · have := hrun.asked; have := hrun.first; have := hit.asked.2; simp; omega
      · intro x hx
        rcases List.mem_append.1 hx with hx | hx
        · exact hit.dims x hx
        · exact hrun.dims x hx
      · intro hbd hin
        obtain ⟨i1, i2⟩ := hit.inside hbd hin
        obtain ⟨i3, i4⟩ := hrun.inside hbd i1
        refine ⟨i3, fun x hx => ?_⟩
        rcases List.mem_append.1 hx with hx | hx
        · exact i2 x hx
        · exact i4 x hx
      · rcases hrun.exit with h | ⟨Q, hlt, hQ | ⟨W, hQ⟩⟩ | h
        · exact Or.inl h
        · right; left
          refine ⟨Q, hlt, ?_⟩
          rcases hprev Q hQ with h | rfl
          · exact Or.inl h
          · exact Or.inr ⟨V', step⟩
        · right; left
          exact ⟨Q, hlt, Or.inr ⟨W, step.trans hQ⟩⟩
        · exact Or.inr (Or.inr h)

theorem countAll_eval (g : List R → R) : ∀ (ps : List (List R)), (countAll ps).eval g = .ok (ps.map g) ∧ (countAll ps).trace g = ps
  | [] => ⟨rfl, rfl⟩
  | p :: ps => by
    obtain ⟨h1, h2⟩ := countAll_eval g ps
    constructor
    · simp [countAll, Prog.askMin, Prog.eval, Prog.eval_bind, h1]
    · simp [countAll, Prog.askMin, Prog.trace, Prog.trace_bind, h1, h2]

theorem regularSimplex_polygon (sqrt : R → R) (initial : List R) (l : R) : Polygon initial.length (regularSimplex sqrt initial l) := by
  constructor
  · simp [regularSimplex]
  · intro p hp
    simp only [regularSimplex, List.mem_cons, List.mem_map] at hp
    rcases hp with rfl | ⟨i, _, rfl⟩
    · rfl
    · simp

theorem search_spec (sqrt : R → R) (g : List R → R) (cfg : Config R) (initial : List R) (hne : initial ≠ [])
    (previous : List (List (List R))) (hp : PrevOk initial.length previous) (fuel : Nat) (hf : 1000 * initial.length + 1 ≤ fuel) :
    ∃ F T, (search sqrt cfg fuel previous initial).eval g = .ok F ∧
      (search sqrt cfg fuel previous initial).trace g = regularSimplex sqrt initial cfg.l ++ T ∧
      Run sqrt g cfg initial.length 0 (regularSimplex sqrt initial cfg.l) ((regularSimplex sqrt initial cfg.l).map g) previous T F := by
  have hpos : 1 ≤ initial.length := List.length_pos_iff.2 hne
  obtain ⟨q1, q2⟩ := regularSimplex_polygon sqrt initial cfg.l
  have hs : Shape initial.length (regularSimplex sqrt initial cfg.l) ((regularSimplex sqrt initial cfg.l).map g) :=
    ⟨hpos, q1, q2, by simp [q1]⟩
  obtain ⟨F, e, hr⟩ := loop_spec sqrt g cfg fuel 0 _ _ previous hs hp (by omega) (by omega)
  obtain ⟨a1, a2⟩ := countAll_eval g (regularSimplex sqrt initial cfg.l)
  refine ⟨F, _, ?_, ?_, hr⟩
  · simp only [search, Prog.eval_bind, a1, Res.ok_bind]; exact e
  · simp only [search, Prog.trace_bind, a1, a2]

theorem result_spec {n : Nat} {F : Final R} (h : Shape n F.polygon F.values) :
    ∃ k p v, result F = .ok p ∧ F.polygon[k]? = some p ∧ F.values[k]? = some v ∧
      ∀ (i : Nat) w, F.values[i]? = some w → w ≤ v ∧ (w = v → k ≤ i) := by
  match hV : F.values with
  | [] => have := h.vals; rw [hV] at this; simp at this
  | v :: vs =>
    have hl := h.vals
    have hsel := Processor.select_best true v vs
    rw [← Grid.maxElement_eq_select] at hsel
    obtain ⟨w, hw, hb⟩ := hsel
    simp only [if_true] at hb
    obtain ⟨hb1, hb2⟩ := hb
    have hlt : Grid.maxElement 0 v 1 vs < F.polygon.length := by
      rw [h.count, ← h.vals, hV]; exact (List.getElem?_eq_some_iff.1 hw).1
    have e : F.polygon[Grid.maxElement 0 v 1 vs]? = some F.polygon[Grid.maxElement 0 v 1 vs] := List.getElem?_eq_getElem hlt
    refine ⟨_, _, w, ?_, e, hw, fun i u hu => ⟨hb1 i u hu, fun he => hb2 i u hu he⟩⟩
    simp only [result, hV, e]

/-! ### C45: termination -/

/-- **C45.** For every function, start and configuration, a call on an object that has so far been used in the same dimension (or not at
all) returns after at most `1000·n + 1` iterations, having evaluated the function at no more than `(n + 1) + 2·iterations` points, all
of the dimension of the start, and leaves the object ready for the next call; a start without coordinates throws. -/
theorem C45_terminates (sqrt : R → R) (g : List R → R) (cfg : Config R) (initial : List R)
    (previous : List (List (List R))) (hp : PrevOk initial.length previous) (fuel : Nat) (hf : 1000 * initial.length + 1 ≤ fuel) :
    (initial = [] → ((find sqrt cfg fuel previous initial).eval g).threw) ∧
    (initial ≠ [] → ∃ F p, (search sqrt cfg fuel previous initial).eval g = .ok F ∧
      (find sqrt cfg fuel previous initial).eval g = .ok (p, F.previous) ∧
      p.length = initial.length ∧ PrevOk initial.length F.previous ∧
      1 ≤ F.iterations ∧ F.iterations ≤ 1000 * initial.length + 1 ∧
      ((find sqrt cfg fuel previous initial).trace g).length ≤ initial.length + 1 + 2 * F.iterations ∧
      (∀ x ∈ (find sqrt cfg fuel previous initial).trace g, x.length = initial.length) ∧
      ExitReason sqrt g cfg initial.length
        (regularSimplex sqrt initial cfg.l, (regularSimplex sqrt initial cfg.l).map g) previous F) := by
  constructor
  · rintro rfl
    obtain ⟨m, rfl⟩ : ∃ m, fuel = m + 1 := ⟨fuel - 1, by simp at hf; omega⟩
    simp [find, search, regularSimplex, countAll, Prog.askMin, Prog.eval, loop, body, getIndexes, Prog.lift]
  · intro hne
    obtain ⟨F, T, e, ht, hr⟩ := search_spec sqrt g cfg initial hne previous hp fuel hf
    obtain ⟨k, p, v, er, hk, hv, hmax⟩ := result_spec hr.shape
    have htr : (find sqrt cfg fuel previous initial).trace g = regularSimplex sqrt initial cfg.l ++ T := by
      simp [find, Prog.trace_bind, e, ht, er]
    obtain ⟨q1, q2⟩ := regularSimplex_polygon sqrt initial cfg.l
    refine ⟨F, p, e, ?_, hr.shape.dim p (List.mem_of_getElem? hk), hr.prev, hr.first, hr.limit, ?_, ?_, hr.exit⟩
    · simp [find, Prog.eval_bind, e, er]
    · have := hr.asked
      rw [htr, List.length_append, q1]
      omega
    · rw [htr]
      intro x hx
      rcases List.mem_append.1 hx with hx | hx
      · exact q2 x hx
      · exact hr.dims x hx

/-! ### C42: bounds of whole runs -/

/-- **C42 (runs).** If the initial simplex lies within the (ordered) bounds, every point at which the function is evaluated and the point
returned lie within the bounds. -/
theorem C42_run (sqrt : R → R) (g : List R → R) (cfg : Config R) (hb : cfg.lower ≤ cfg.upper) (initial : List R)
    (hin : ∀ p ∈ regularSimplex sqrt initial cfg.l, InBounds cfg p)
    (previous : List (List (List R))) (hp : PrevOk initial.length previous) (fuel : Nat) (hf : 1000 * initial.length + 1 ≤ fuel)
    (p : List R) (prev' : List (List (List R))) (h : (find sqrt cfg fuel previous initial).eval g = .ok (p, prev')) :
    InBounds cfg p ∧ ∀ x ∈ (find sqrt cfg fuel previous initial).trace g, InBounds cfg x := by
  by_cases hne : initial = []
  · exfalso
    have := (C45_terminates sqrt g cfg initial previous hp fuel hf).1 hne
    rw [h] at this
    exact this
  · obtain ⟨F, T, e, ht, hr⟩ := search_spec sqrt g cfg initial hne previous hp fuel hf
    obtain ⟨k, q, v, er, hk, hv, hmax⟩ := result_spec hr.shape
    have hev : (find sqrt cfg fuel previous initial).eval g = .ok (q, F.previous) := by simp [find, Prog.eval_bind, e, er]
    have htr : (find sqrt cfg fuel previous initial).trace g = regularSimplex sqrt initial cfg.l ++ T := by
      simp [find, Prog.trace_bind, e, ht, er]
    rw [hev] at h
    simp only [Res.ok.injEq, Prod.mk.injEq] at h
    obtain ⟨rfl, rfl⟩ := h
    obtain ⟨i1, i2⟩ := hr.inside hb hin
    refine ⟨i1 _ (List.mem_of_getElem? hk), ?_⟩
    rw [htr]
    intro x hx
    rcases List.mem_append.1 hx with hx | hx
    · exact hin x hx
    · exact i2 x hx

/-- **C42 (one iteration, any polygon).** The first point evaluated in an iteration – the reflection – lies within the bounds even when
the polygon does not. -/
theorem C42_reflection_in_bounds (g : List R → R) (cfg : Config R) (hb : cfg.lower ≤ cfg.upper) {n : Nat} {P : List (List R)} {V : List R}
    (h : Shape n P V) : ∃ x, ((body cfg P V).trace g)[0]? = some x ∧ InBounds cfg x := by
  obtain ⟨P', V', hit⟩ := body_spec g cfg h
  have := hit.asked.1
  exact ⟨_, List.getElem?_eq_getElem (by omega), hit.first_in hb _ (List.getElem?_eq_getElem (by omega))⟩

/-! ### C44: what is returned -/

/-- **C44.** The vertex returned is one of the final polygon, the first with the *largest* recorded value of the minimized function; the
final polygon also holds a vertex – the one with the smallest recorded value – that is at least as good as every vertex of the initial
simplex, in particular as the start. -/
theorem C44_result (sqrt : R → R) (g : List R → R) (cfg : Config R) (initial : List R) (hne : initial ≠ [])
    (previous : List (List (List R))) (hp : PrevOk initial.length previous) (fuel : Nat) (hf : 1000 * initial.length + 1 ≤ fuel) :
    ∃ F p k v, (search sqrt cfg fuel previous initial).eval g = .ok F ∧
      (find sqrt cfg fuel previous initial).eval g = .ok (p, F.previous) ∧
      F.polygon[k]? = some p ∧ F.values[k]? = some v ∧ (∀ (i : Nat) w, F.values[i]? = some w → w ≤ v ∧ (w = v → k ≤ i)) ∧
      ∃ best ∈ F.polygon, (∀ w ∈ F.values, g best ≤ w) ∧ ∀ q ∈ regularSimplex sqrt initial cfg.l, g best ≤ g q := by
  obtain ⟨F, T, e, ht, hr⟩ := search_spec sqrt g cfg initial hne previous hp fuel hf
  obtain ⟨k, q, v, er, hk, hv, hmax⟩ := result_spec hr.shape
  have hm0 : MinTrue g (regularSimplex sqrt initial cfg.l) ((regularSimplex sqrt initial cfg.l).map g) :=
    MinTrue.of_fresh g (by simp [regularSimplex])
  obtain ⟨j, b, hj, hjv, hmin⟩ := hr.minTrue hm0
  refine ⟨F, q, k, v, e, by simp [find, Prog.eval_bind, e, er], hk, hv, hmax, b, List.mem_of_getElem? hj, ?_, ?_⟩
  · intro w hw
    obtain ⟨i, hi⟩ := List.mem_iff_getElem?.1 hw
    exact (hmin i w hi).1
  · intro x hx
    obtain ⟨i, hi⟩ := List.mem_iff_getElem?.1 hx
    obtain ⟨w, hw, hle⟩ := hr.below i (g x) (by rw [List.getElem?_map, hi]; rfl)
    exact ((hmin i w hw).1).trans hle

theorem simplex_one (sqrt : R → R) (h2 : sqrt 2 ≠ 0) (l x : R) : regularSimplex sqrt [x] l = [[x], [x + l]] := by
  have h : (1 : R) + 1 = 2 := by norm_num
  have hr : l * sqrt 2 / sqrt 2 = l := by rw [mul_div_assoc, div_self h2, mul_one]
  simp [regularSimplex, h, hr, List.range_succ]

theorem center_one (a b : R) : centerOfMass [[a], [b]] 1 = .ok [a] := by
  simp [centerOfMass, List.range_succ]

theorem difference_two (sqrt : R → R) (a b : R) : difference sqrt [a, b] = sqrt ((a - b) ^ 2 / 4) := by
  simp only [difference, List.foldl_cons, List.foldl_nil, List.length_cons, List.length_nil]
  congr 1
  push_cast
  ring

/-- **C44 (violation).** Minimizing `x` from 0 with step 1 the final polygon is `{0, -2}` and the worse of the two, 0, is returned – for
every square root function that is right for 2 and 1. -/
theorem C44_returns_worst (sqrt : R → R) (h2 : sqrt 2 ≠ 0) (h1 : sqrt 1 = 1) (fuel : Nat) :
    (search sqrt ⟨1, 5, -10, 10⟩ (fuel + 1) [] [0]).eval (fun v => v.headD 0) = .ok ⟨[[0], [-2]], [0, -2], [[[0], [-2]]], 1⟩ ∧
    (find sqrt ⟨1, 5, -10, 10⟩ (fuel + 1) [] [0]).eval (fun v => v.headD 0) = .ok ([0], [[[0], [-2]]]) := by
  have hs : (search sqrt ⟨1, 5, -10, 10⟩ (fuel + 1) [] [0]).eval (fun v => v.headD 0) =
      .ok ⟨[[0], [-2]], [0, -2], [[[0], [-2]]], 1⟩ := by
    have hb : (body (R := R) ⟨1, 5, -10, 10⟩ [[0], [1]] [0, 1]).eval (fun v => v.headD 0) = .ok ([[0], [-2]], [0, -2]) := by
      norm_num [body, getIndexes, indexLoop, center_one, Prog.lift, Prog.askMin, Prog.eval, reflexion, expansion, project]
    have hd : difference sqrt [0, -2] = 1 := by rw [difference_two]; norm_num [h1]
    have hg : goOn sqrt ⟨1, 5, -10, 10⟩ 1 [0, -2] [[0], [-2]] [] = .ok (false, [[[0], [-2]]]) := by
      norm_num [goOn, wasSame, sameLoop, hd]
    simp only [search, Prog.eval_bind, (countAll_eval _ _).1, Res.ok_bind, simplex_one sqrt h2, zero_add, List.map_cons, List.map_nil,
      List.headD_cons, loop, hb, Prog.eval_lift, hg]
    rfl
  refine ⟨hs, ?_⟩
  simp only [find, Prog.eval_bind, hs, Res.ok_bind, Prog.eval_lift]
  norm_num [result, Grid.maxElement]

/-- A function that is 0 at 0, 5 at 1/2 and 1 everywhere else. -/
def bump (v : List R) : R := if v.headD 0 = 0 then 0 else if v.headD 0 = 1 / 2 then 5 else 1

/-- **C44 (violation, stale values).** After a reduction the recorded values are not recomputed: minimizing `bump` from 0 returns 1/2, whose
value 5 is worse than that of the start and of every other point of the initial simplex, while the value recorded for it is 1. -/
theorem C44_worse_than_start (sqrt : R → R) (h2 : sqrt 2 ≠ 0) (h1 : sqrt (1 / 4) = 1 / 2) (fuel : Nat) :
    (search sqrt ⟨1, 5, -10, 10⟩ (fuel + 1) [] [0]).eval bump = .ok ⟨[[0], [1 / 2]], [0, 1], [[[0], [1 / 2]]], 1⟩ ∧
    (find sqrt ⟨1, 5, -10, 10⟩ (fuel + 1) [] [0]).eval bump = .ok ([1 / 2], [[[0], [1 / 2]]]) ∧
    bump [(0 : R)] = 0 ∧ bump [(1 : R) / 2] = 5 := by
  have b0 : bump [(0 : R)] = 0 := by simp [bump]
  have b1 : bump [(1 : R)] = 1 := by norm_num [bump]
  have bm : bump [(-1 : R)] = 1 := by norm_num [bump]
  have bh : bump [(1 : R) / 2] = 5 := by norm_num [bump]
  have hs : (search sqrt ⟨1, 5, -10, 10⟩ (fuel + 1) [] [0]).eval bump = .ok ⟨[[0], [1 / 2]], [0, 1], [[[0], [1 / 2]]], 1⟩ := by
    have hb : (body (R := R) ⟨1, 5, -10, 10⟩ [[0], [1]] [0, 1]).eval bump = .ok ([[0], [1 / 2]], [0, 1]) := by
      have hr : project (R := R) ⟨1, 5, -10, 10⟩ (reflexion [0] [1]) = [-1] := by norm_num [reflexion, project]
      have hc : contraction (R := R) [0] [1] = [1 / 2] := by norm_num [contraction]
      have hred : reduction (R := R) [[0], [1]] 0 = .ok [[0], [1 / 2]] := by norm_num [reduction]
      norm_num [body, getIndexes, indexLoop, center_one, Prog.lift, Prog.askMin, Prog.eval, hr, hc, bm, bh]
      norm_num [hred]
    have hd : difference sqrt [0, 1] = 1 / 2 := by rw [difference_two]; norm_num at h1 ⊢; exact h1
    have hg : goOn sqrt ⟨1, 5, -10, 10⟩ 1 [0, 1] [[0], [1 / 2]] [] = .ok (false, [[[0], [1 / 2]]]) := by
      norm_num [goOn, wasSame, sameLoop, hd]
    simp only [search, Prog.eval_bind, (countAll_eval _ _).1, Res.ok_bind, simplex_one sqrt h2, zero_add, List.map_cons, List.map_nil,
      b0, b1, loop, hb, Prog.eval_lift, hg]
    rfl
  refine ⟨hs, ?_, b0, bh⟩
  simp only [find, Prog.eval_bind, hs, Res.ok_bind, Prog.eval_lift]
  norm_num [result, Grid.maxElement]

/-! ### C44: what can be relied on after convergence -/

/-- What is used of the library's square root. -/
def SqrtOk (sqrt : R → R) : Prop := ∀ x, 0 ≤ x → 0 ≤ sqrt x ∧ sqrt x * sqrt x = x

theorem foldl_sq_ge (m : R) : ∀ (V : List R) (acc : R), acc ≤ V.foldl (fun s v => s + (v - m) * (v - m)) acc ∧
    ∀ (i : Nat) a, V[i]? = some a → acc + (a - m) * (a - m) ≤ V.foldl (fun s v => s + (v - m) * (v - m)) acc ∧
      ∀ (j : Nat) b, V[j]? = some b → i ≠ j →
        acc + (a - m) * (a - m) + (b - m) * (b - m) ≤ V.foldl (fun s v => s + (v - m) * (v - m)) acc
  | [], acc => ⟨le_rfl, fun i a h => by simp at h⟩
  | v :: V, acc => by
    have hv := mul_self_nonneg (v - m)
    obtain ⟨h1, h2⟩ := foldl_sq_ge m V (acc + (v - m) * (v - m))
    simp only [List.foldl_cons]
    refine ⟨by linarith, fun i a hi => ?_⟩
    match i with
    | 0 =>
      simp at hi; subst hi
      refine ⟨h1, fun j b hj hne => ?_⟩
      match j with
      | 0 => exact absurd rfl hne
      | j + 1 => exact (h2 j b (by simpa using hj)).1
    | i + 1 =>
      obtain ⟨h3, h4⟩ := h2 i a (by simpa using hi)
      refine ⟨by linarith, fun j b hj hne => ?_⟩
      match j with
      | 0 => simp at hj; subst hj; linarith
      | j + 1 =>
        have := h4 j b (by simpa using hj) (by omega)
        linarith

theorem difference_bound {sqrt : R → R} (hs : SqrtOk sqrt) {V : List R} {precision : R} (h : difference sqrt V ≤ precision)
    {i j : Nat} {a b : R} (hi : V[i]? = some a) (hj : V[j]? = some b) : (a - b) ^ 2 ≤ 2 * V.length * precision ^ 2 := by
  have hlen : 0 < V.length := by have := (List.getElem?_eq_some_iff.1 hi).1; omega
  have hlen' : (0 : R) < (V.length : R) := by exact_mod_cast hlen
  by_cases hij : i = j
  · subst hij
    rw [hi] at hj
    obtain rfl : a = b := by simpa using hj
    rw [sub_self, zero_pow (by norm_num)]
    positivity
  · unfold difference at h
    simp only at h
    set m := V.foldl (· + ·) 0 / (V.length : R)
    obtain ⟨h0, hh⟩ := foldl_sq_ge m V 0
    have h2 := (hh i a hi).2 j b hj hij
    set S := V.foldl (fun s v => s + (v - m) * (v - m)) 0
    have hS : 0 ≤ S / (V.length : R) := div_nonneg h0 hlen'.le
    obtain ⟨q1, q2⟩ := hs _ hS
    have q3 : S / (V.length : R) ≤ precision ^ 2 := by rw [← q2]; nlinarith
    have q4 : S ≤ precision ^ 2 * V.length := by rwa [div_le_iff₀ hlen'] at q3
    nlinarith [sq_nonneg (a - m + (b - m))]

/-- **C44 (convergence).** When the search ends because the recorded values differ little, the recorded value of the returned point exceeds
the value at the best vertex – and so any value of the initial simplex – by at most `√(2(n+1))·precision`. -/
theorem C44_converged (sqrt : R → R) (hsqrt : SqrtOk sqrt) (g : List R → R) (cfg : Config R) (initial : List R) (hne : initial ≠ [])
    (previous : List (List (List R))) (hp : PrevOk initial.length previous) (fuel : Nat) (hf : 1000 * initial.length + 1 ≤ fuel)
    (F : Final R) (hF : (search sqrt cfg fuel previous initial).eval g = .ok F) (hconv : difference sqrt F.values ≤ cfg.precision) :
    ∃ (p : List R) (k : Nat) (v : R) (best : List R), (find sqrt cfg fuel previous initial).eval g = .ok (p, F.previous) ∧
      F.polygon[k]? = some p ∧ F.values[k]? = some v ∧
      best ∈ F.polygon ∧ g best ≤ v ∧ (v - g best) ^ 2 ≤ 2 * ((initial.length : R) + 1) * cfg.precision ^ 2 ∧
      ∀ q ∈ regularSimplex sqrt initial cfg.l, g best ≤ g q := by
  obtain ⟨F', T, e, ht, hr⟩ := search_spec sqrt g cfg initial hne previous hp fuel hf
  rw [hF] at e
  obtain rfl : F = F' := by simpa using e
  obtain ⟨k, q, v, er, hk, hv, hmax⟩ := result_spec hr.shape
  have hm0 : MinTrue g (regularSimplex sqrt initial cfg.l) ((regularSimplex sqrt initial cfg.l).map g) :=
    MinTrue.of_fresh g (by simp [regularSimplex])
  obtain ⟨j, b, hj, hjv, hmin⟩ := hr.minTrue hm0
  refine ⟨q, k, v, b, by simp [find, Prog.eval_bind, hF, er], hk, hv, List.mem_of_getElem? hj, (hmin k v hv).1, ?_, ?_⟩
  · have := difference_bound hsqrt hconv hv hjv
    rw [hr.shape.vals] at this
    push_cast at this
    exact this
  · intro x hx
    obtain ⟨i, hi⟩ := List.mem_iff_getElem?.1 hx
    obtain ⟨w, hw, hle⟩ := hr.below i (g x) (by rw [List.getElem?_map, hi]; rfl)
    exact ((hmin i w hw).1).trans hle

/-! ### C64: the object remembers polygons of earlier calls -/

theorem loop_one (sqrt : R → R) (g : List R → R) (cfg : Config R) {n : Nat} {P P' : List (List R)} {V V' : List R}
    (hs : Shape n P V) (hb : (body cfg P V).eval g = .ok (P', V')) (previous : List (List (List R))) (hp : PrevOk n previous)
    (hm : ∃ Q ∈ previous, polyDist P' Q < FloatingPoint.eps) (fuel : Nat) :
    ∃ prev', (loop sqrt cfg (fuel + 1) 0 P V previous).eval g = .ok ⟨P', V', prev', 1⟩ := by
  obtain ⟨A, B, hit⟩ := body_spec g cfg hs
  rw [hit.eval] at hb
  simp only [Res.ok.injEq, Prod.mk.injEq] at hb
  obtain ⟨rfl, rfl⟩ := hb
  obtain ⟨b, prev', eg, hp', hiff, hmem⟩ := goOn_spec sqrt cfg 1 hit.shape hp
  obtain ⟨Q, hQ, hlt⟩ := hm
  have : b = false := by
    by_contra hc
    have := hiff.1 (by simpa using hc)
    exact absurd (this.2.1 Q hQ) (not_le.2 hlt)
  subst this
  refine ⟨prev', ?_⟩
  simp only [loop, Prog.eval_bind, hit.eval, Res.ok_bind, Prog.eval_lift, Nat.zero_add, eg]
  rfl

theorem loop_mono (sqrt : R → R) (g : List R → R) (cfg : Config R) (m : Nat) : ∀ (fuel r : Nat) (P : List (List R)) (V : List R)
    (previous : List (List (List R))) (F : Final R), (loop sqrt cfg fuel r P V previous).eval g = .ok F →
    (loop sqrt cfg (fuel + m) r P V previous).eval g = .ok F
  | 0, _, _, _, _, _, h => by simp [loop] at h
  | fuel + 1, r, P, V, previous, F, h => by
    rw [show fuel + 1 + m = (fuel + m) + 1 by omega]
    simp only [loop, Prog.eval_bind] at h ⊢
    rw [Res.bind_eq_ok] at h ⊢
    obtain ⟨s, e1, h⟩ := h
    refine ⟨s, e1, ?_⟩
    rw [Res.bind_eq_ok] at h ⊢
    obtain ⟨t, e2, h⟩ := h
    refine ⟨t, e2, ?_⟩
    split at h
    · next c => rw [if_pos c]; exact loop_mono sqrt g cfg m fuel (r + 1) _ _ _ F h
    · next c => rw [if_neg c]; exact h

theorem loop_remembers (sqrt : R → R) (g : List R → R) (cfg : Config R) {n : Nat} : ∀ (fuel r : Nat) (P : List (List R)) (V : List R)
    (previous : List (List (List R))) (F : Final R), Shape n P V → PrevOk n previous →
    (loop sqrt cfg fuel r P V previous).eval g = .ok F → F.iterations ≤ 1000 * n → previous.length + F.iterations ≤ 10 + r →
    r < F.iterations ∧ (∀ Q ∈ previous, Q ∈ F.previous) ∧ ∃ P' V', (body cfg P V).eval g = .ok (P', V') ∧ P' ∈ F.previous
  | 0, r, _, _, _, _, _, _, h, _, _ => by simp [loop] at h
  | fuel + 1, r, P, V, previous, F, hs, hp, h, hlim, hten => by
    obtain ⟨P', V', hit⟩ := body_spec g cfg hs
    obtain ⟨b, prev', eg, hp', hiff, hmem⟩ := goOn_spec sqrt cfg (r + 1) hit.shape hp
    simp only [loop, Prog.eval_bind, hit.eval, Res.ok_bind, Prog.eval_lift, eg] at h
    have hprev : r + 1 ≤ 1000 * n → previous.length < 10 → prev' = previous ++ [P'] := by
      intro h1 h2
      have e := eg
      unfold goOn at e
      rw [headD_length hit.shape, if_neg (by omega)] at e
      obtain ⟨sb, es, _⟩ := sameLoop_eq hit.shape.polygon previous hp.2
      simp only [wasSame, es, Res.ok_bind, Res.pure_eq, if_neg (show ¬ previous.length ≥ 10 by omega)] at e
      split at e
      · simp only [Res.ok.injEq, Prod.mk.injEq] at e; exact e.2.symm
      · simp only [Res.ok.injEq, Prod.mk.injEq] at e; exact e.2.symm
    cases b with
    | false =>
      have hF : F = ⟨P', V', prev', r + 1⟩ := by
        have h' : (Res.ok (⟨P', V', prev', r + 1⟩ : Final R)) = .ok F := h
        exact (Res.ok.inj h').symm
      subst hF
      simp only at hlim hten ⊢
      have e := hprev hlim (by omega)
      subst e
      exact ⟨by omega, fun Q hQ => by simp [hQ], P', V', hit.eval, by simp⟩
    | true =>
      simp only [if_true] at h
      have c1 := (hiff.1 rfl).1
      by_cases hten' : previous.length < 10
      · have e := hprev c1 hten'
        subst e
        obtain ⟨k1, k2, k3⟩ := loop_remembers sqrt g cfg fuel (r + 1) P' V' _ F hit.shape hp' h hlim (by simp; omega)
        exact ⟨by omega, fun Q hQ => k2 Q (by simp [hQ]), P', V', hit.eval, k2 P' (by simp)⟩
      · exfalso
        obtain ⟨m, hm⟩ : ∃ m, (loop sqrt cfg (fuel + m) (r + 1) P' V' prev').eval g = .ok F ∧ 1000 * n + 1 ≤ r + 1 + (fuel + m) := by
          refine ⟨1000 * n, ?_, by omega⟩
          exact loop_mono sqrt g cfg (1000 * n) fuel (r + 1) P' V' prev' F h
        obtain ⟨F', e', hrun⟩ := loop_spec sqrt g cfg (fuel + m) (r + 1) P' V' prev' hit.shape hp' c1 hm.2
        rw [hm.1] at e'
        obtain rfl : F = F' := by simpa using e'
        have := hrun.first
        omega

/-- **C64 (repeating a call).** Calling the same object again with the same function and start stops after the first iteration if the
first call took no more than ten iterations – whatever the precision and however much the values still differ: the polygons of the first
call are still remembered. -/
theorem C64_second_call (sqrt : R → R) (g : List R → R) (cfg : Config R) (initial : List R) (hne : initial ≠ []) (fuel fuel' : Nat)
    (F : Final R) (hF : (search sqrt cfg fuel [] initial).eval g = .ok F) (hten : F.iterations ≤ 10) :
    ∃ F', (search sqrt cfg (fuel' + 1) F.previous initial).eval g = .ok F' ∧ F'.iterations = 1 ∧
      (body cfg (regularSimplex sqrt initial cfg.l) ((regularSimplex sqrt initial cfg.l).map g)).eval g = .ok (F'.polygon, F'.values) := by
  have hpos : 1 ≤ initial.length := List.length_pos_iff.2 hne
  obtain ⟨q1, q2⟩ := regularSimplex_polygon sqrt initial cfg.l
  have hs : Shape initial.length (regularSimplex sqrt initial cfg.l) ((regularSimplex sqrt initial cfg.l).map g) :=
    ⟨hpos, q1, q2, by simp [q1]⟩
  have hp0 : PrevOk initial.length ([] : List (List (List R))) := ⟨by simp, by simp⟩
  simp only [search, Prog.eval_bind, (countAll_eval _ _).1, Res.ok_bind] at hF ⊢
  obtain ⟨_, _, P', V', eb, hmem⟩ := loop_remembers sqrt g cfg fuel 0 _ _ [] F hs hp0 hF (by omega) (by simpa using hten)
  have hpF : PrevOk initial.length F.previous := by
    have h1 := loop_mono sqrt g cfg (1000 * initial.length + 1) fuel 0 _ _ [] F hF
    obtain ⟨F', e', hrun⟩ := loop_spec sqrt g cfg (fuel + (1000 * initial.length + 1)) 0 _ _ [] hs hp0 (by omega) (by omega)
    rw [h1] at e'
    obtain rfl : F = F' := by simpa using e'
    exact hrun.prev
  have hself : polyDist P' P' < FloatingPoint.eps := by
    have hrow : ∀ p : List R, rowDist p p = 0 := by
      intro p; induction p with
      | nil => simp [rowDist]
      | cons x p ih => simp [rowDist]
    have : polyDist P' P' = 0 := by
      unfold polyDist
      clear eb hmem
      induction P' with
      | nil => simp
      | cons p P ih => simp [hrow]
    rw [this]
    unfold FloatingPoint.eps
    positivity
  obtain ⟨prev', e⟩ := loop_one sqrt g cfg hs eb F.previous hpF ⟨P', hmem, hself⟩ fuel'
  exact ⟨_, e, rfl, eb⟩

/-- Non-vacuity: minimizing `x` from 3 towards the bound 0 with precision 1/2: the first call ends at 0 after several iterations, the
second one, with the same arguments, ends elsewhere after one. -/
def sqrtQ (x : ℚ) : ℚ := if x = 2 then 3 / 2 else x

example : ((find sqrtQ ⟨1, 1 / 1000, 0, 10⟩ 1001 [] [8]).eval (fun v => v.headD 0)).bind (fun r =>
    ((find sqrtQ ⟨1, 1 / 1000, 0, 10⟩ 1001 r.2 [8]).eval (fun v => v.headD 0)).bind fun r' => .ok (r.1, r'.1)) = .ok ([0], [8]) := by
  decide +kernel

/-- **C64 (larger dimension).** Once the object remembers a polygon of a dimension `n`, a call in a larger dimension `m` reads beyond the
end of the remembered vertices: undefined behaviour, whatever the function. -/
theorem C64_larger_dimension (sqrt : R → R) (g : List R → R) (cfg : Config R) {n : Nat} (Q : List (List R)) (hQ : Polygon n Q)
    (rest : List (List (List R))) (initial : List R) (hlt : n < initial.length) (fuel : Nat) :
    (find sqrt cfg (fuel + 1) (Q :: rest) initial).eval g = .ub := by
  have hpos : 1 ≤ initial.length := by omega
  obtain ⟨q1, q2⟩ := regularSimplex_polygon sqrt initial cfg.l
  have hs : Shape initial.length (regularSimplex sqrt initial cfg.l) ((regularSimplex sqrt initial cfg.l).map g) :=
    ⟨hpos, q1, q2, by simp [q1]⟩
  obtain ⟨P', V', hit⟩ := body_spec g cfg hs
  have hrow : ∀ (p q : List R) (acc : R), q.length < p.length → rowDifference acc p q = .ub := by
    intro p
    induction p with
    | nil => intro q acc h; simp at h
    | cons x p ih =>
      intro q acc h
      cases q with
      | nil => rfl
      | cons y q => exact ih q _ (by simpa using h)
  have hpoly : polygonDifference 0 P' Q = .ub := by
    cases hP : P' with
    | nil => have := hit.shape.count; rw [hP] at this; simp at this
    | cons p ps =>
      cases hq : Q with
      | nil => have := hQ.1; rw [hq] at this; simp at this
      | cons q qs =>
        have h1 : p.length = initial.length := hit.shape.dim p (by rw [hP]; simp)
        have h2 : q.length = n := hQ.2 q (by rw [hq]; simp)
        simp only [polygonDifference, hrow p q 0 (by omega), Res.ub_bind]
  have hg : goOn sqrt cfg 1 V' P' (Q :: rest) = .ub := by
    unfold goOn
    rw [headD_length hit.shape, if_neg (by omega)]
    simp [wasSame, sameLoop, hpoly]
  simp only [find, search, Prog.eval_bind, (countAll_eval _ _).1, Res.ok_bind, loop, hit.eval, Prog.eval_lift, Nat.zero_add, hg,
    Res.ub_bind]

/-- Non-vacuity: a search in one dimension followed by one in two dimensions on the same object. -/
example : ((find sqrtQ ⟨1, 5, -10, 10⟩ 1001 [] [0]).eval (fun v => v.headD 0)).bind (fun r =>
    (find sqrtQ ⟨1, 5, -10, 10⟩ 2001 r.2 [0, 0]).eval (fun v => v.sum)) = .ub := by decide +kernel

/-! ### C42: the initial simplex is not projected -/

/-- **C42 (initial simplex).** The vertices of the initial simplex are evaluated as they are, and for a constant function the start is
returned – within the bounds or not. -/
theorem C42_not_projected (sqrt : R → R) (c : R) (cfg : Config R) (initial : List R)
    (hne : initial ≠ []) (fuel : Nat) (hf : 1000 * initial.length + 1 ≤ fuel) :
    (∀ x ∈ regularSimplex sqrt initial cfg.l, x ∈ (find sqrt cfg fuel [] initial).trace (fun _ => c)) ∧
    ∃ prev, (find sqrt cfg fuel [] initial).eval (fun _ => c) = .ok (initial, prev) := by
  have hp0 : PrevOk initial.length ([] : List (List (List R))) := ⟨by simp, by simp⟩
  obtain ⟨F, T, e, ht, hr⟩ := search_spec sqrt (fun _ => c) cfg initial hne [] hp0 fuel hf
  obtain ⟨k, p, v, er, hk, hv, hmax⟩ := result_spec hr.shape
  have htr : (find sqrt cfg fuel [] initial).trace (fun _ => c) = regularSimplex sqrt initial cfg.l ++ T := by
    simp [find, Prog.trace_bind, e, ht, er]
  refine ⟨fun x hx => by rw [htr]; exact List.mem_append_left _ hx, ?_⟩
  -- every step keeps the values constant and the first vertex
  have hstep : ∀ (P : List (List R)) (V : List R), Shape initial.length P V → (∀ w ∈ V, w = c) → P[0]? = some initial →
      ∃ P' V', (body cfg P V).eval (fun _ => c) = .ok (P', V') ∧ (∀ w ∈ V', w = c) ∧ P'[0]? = some initial := by
    intro P V hs hV hP
    obtain ⟨s, es, hg⟩ := getIndexes_spec (values := V) (by rw [hs.vals]; have := hs.pos; omega)
    obtain ⟨g1, g2, g3, g4, g5, g6⟩ := hg
    have e1 : s.firstV = c := hV _ (List.mem_of_getElem? g1)
    have e2 : s.secondV = c := hV _ (List.mem_of_getElem? g2)
    have e3 : s.minV = c := hV _ (List.mem_of_getElem? g3)
    have hl : s.first < P.length := by rw [hs.count, ← hs.vals]; exact (List.getElem?_eq_some_iff.1 g1).1
    have hmin : s.min = 0 := by
      by_contra hc
      have hl0 : 0 < V.length := by rw [hs.vals]; omega
      have h0' : V[0]? = some V[0] := List.getElem?_eq_getElem hl0
      have := (g6 0 _ h0').2.2.2 (by omega)
      rw [e3, hV _ (List.mem_of_getElem? h0')] at this
      exact lt_irrefl _ this
    obtain ⟨cm, ec, _, _⟩ := centerOfMass_spec hs hl
    refine ⟨P.set s.first (project cfg (reflexion cm P[s.first])), V.set s.first c, ?_, ?_, ?_⟩
    · simp [body, es, ec, List.getElem?_eq_getElem hl, Prog.lift, Prog.askMin, Prog.eval, e2, e3]
    · intro w hw
      rcases List.mem_or_eq_of_mem_set hw with hw | rfl
      · exact hV w hw
      · rfl
    · rw [List.getElem?_set_ne (by omega)]; exact hP
  have hinv : (∀ w ∈ F.values, w = c) ∧ F.polygon[0]? = some initial := by
    have key : ∀ b : List (List R) × List R, Relation.TransGen (Leads (fun _ => c) cfg)
        (regularSimplex sqrt initial cfg.l, (regularSimplex sqrt initial cfg.l).map fun _ => c) b →
        Shape initial.length b.1 b.2 ∧ (∀ w ∈ b.2, w = c) ∧ b.1[0]? = some initial := by
      have hs0 : Shape initial.length (regularSimplex sqrt initial cfg.l) ((regularSimplex sqrt initial cfg.l).map fun _ => c) := by
        obtain ⟨q1, q2⟩ := regularSimplex_polygon sqrt initial cfg.l
        exact ⟨List.length_pos_iff.2 hne, q1, q2, by simp [q1]⟩
      have one : ∀ a b : List (List R) × List R, Shape initial.length a.1 a.2 → (∀ w ∈ a.2, w = c) → a.1[0]? = some initial →
          Leads (fun _ => c) cfg a b → Shape initial.length b.1 b.2 ∧ (∀ w ∈ b.2, w = c) ∧ b.1[0]? = some initial := by
        intro a b ha1 ha2 ha3 hab
        obtain ⟨P', V', e1, h1, h2⟩ := hstep a.1 a.2 ha1 ha2 ha3
        obtain ⟨P'', V'', hit⟩ := body_spec (fun _ => c) cfg ha1
        unfold Leads at hab
        have e2 := hit.eval
        rw [e1] at hab e2
        obtain rfl : (P', V') = b := Res.ok.inj hab
        have := Res.ok.inj e2
        simp only [Prod.mk.injEq] at this
        obtain ⟨rfl, rfl⟩ := this
        exact ⟨hit.shape, h1, h2⟩
      intro b hb
      induction hb with
      | single h => exact one _ _ hs0 (by intro w hw; simp at hw; exact hw.2) (by simp [regularSimplex]) h
      | tail _ h ih => exact one _ _ ih.1 ih.2.1 ih.2.2 h
    exact (key _ hr.reached).2
  have hv0 : F.values[0]? = some c := by
    have : 0 < F.values.length := by rw [hr.shape.vals]; omega
    rw [List.getElem?_eq_getElem this]
    exact congrArg some (hinv.1 _ (List.getElem_mem this))
  have hk0 : k = 0 := by
    have := (hmax 0 c hv0).2 (hinv.1 v (List.mem_of_getElem? hv)).symm
    omega
  subst hk0
  rw [hinv.2] at hk
  obtain rfl : initial = p := by simpa using hk
  exact ⟨F.previous, by simp [find, Prog.eval_bind, e, er]⟩

/-! ### C65: the initial simplex -/

/-- Squared Euclidean distance of two points with `n` coordinates. -/
def sqDist (n : Nat) (p q : List R) : R := ∑ j ∈ Finset.range n, (p.getD j 0 - q.getD j 0) ^ 2

theorem sum_ite_two (n i j : Nat) (hi : i < n) (hj : j < n) (hij : i ≠ j) (a b : R) :
    ∑ k ∈ Finset.range n, ((if k = i then a else b) - (if k = j then a else b)) ^ 2 = 2 * (a - b) ^ 2 := by
  have e : ∀ k, ((if k = i then a else b) - (if k = j then a else b)) ^ 2 =
      (if k = i then (a - b) ^ 2 else 0) + (if k = j then (a - b) ^ 2 else 0) := by
    intro k
    by_cases h1 : k = i
    · subst h1; simp [hij]
    · by_cases h2 : k = j
      · subst h2; simp [h1]; ring
      · simp [h1, h2]
  simp only [e, Finset.sum_add_distrib, Finset.sum_ite_eq', Finset.mem_range, hi, hj, if_true]
  ring

theorem sum_ite_one (n i : Nat) (hi : i < n) (a b : R) :
    ∑ k ∈ Finset.range n, (if k = i then a else b) ^ 2 = a ^ 2 + ((n : R) - 1) * b ^ 2 := by
  have e : ∀ k, (if k = i then a else b) ^ 2 = (if k = i then a ^ 2 - b ^ 2 else 0) + b ^ 2 := by
    intro k; by_cases h : k = i <;> simp [h]
  simp only [e, Finset.sum_add_distrib, Finset.sum_ite_eq', Finset.mem_range, hi, if_true, Finset.sum_const, Finset.card_range,
    nsmul_eq_mul]
  ring

/-- **C65.** The initial simplex has the start as its first vertex, `n + 1` vertices in all, and is regular: any two different vertices are
at distance `l`. -/
theorem C65_regular_simplex (sqrt : R → R) (hsqrt : SqrtOk sqrt) (initial : List R) (l : R) :
    let S := regularSimplex sqrt initial l
    S[0]? = some initial ∧ S.length = initial.length + 1 ∧ (∀ p ∈ S, p.length = initial.length) ∧
    ∀ (i j : Nat) p q, S[i]? = some p → S[j]? = some q → i ≠ j → sqDist initial.length p q = l ^ 2 := by
  intro S
  obtain ⟨q1, q2⟩ := regularSimplex_polygon sqrt initial l
  refine ⟨by simp [S, regularSimplex], q1, q2, ?_⟩
  set n := initial.length with hn
  set r1 := l * (sqrt ((n : R) + 1) + n - 1) / (n * sqrt 2) with hr1
  set r2 := l * (sqrt ((n : R) + 1) - 1) / (n * sqrt 2) with hr2
  have hn0 : (0 : R) ≤ n := Nat.cast_nonneg n
  obtain ⟨s0, s1⟩ := hsqrt ((n : R) + 1) (by linarith)
  obtain ⟨t0, t1⟩ := hsqrt 2 (by norm_num)
  have ht : sqrt 2 ≠ 0 := by intro h; rw [h] at t1; norm_num at t1
  have hS : ∀ (k : Nat) p, S[k + 1]? = some p → k < n ∧ ∀ j, j < n → p.getD j 0 = initial.getD j 0 + (if j = k then r1 else r2) := by
    intro k p hp
    have hp' : ((List.range n).map fun i => initial.mapIdx fun j x => if j = i then x + r1 else x + r2)[k]? = some p := by
      simpa [S, regularSimplex] using hp
    rw [List.getElem?_map] at hp'
    by_cases hk : k < n
    · refine ⟨hk, fun j hj => ?_⟩
      rw [List.getElem?_range hk] at hp'
      simp only [Option.map_some, Option.some.injEq] at hp'
      subst hp'
      have hj' : j < initial.length := hj
      simp only [List.getD_eq_getElem?_getD, List.getElem?_mapIdx, List.getElem?_eq_getElem hj', Option.map_some, Option.getD_some]
      split <;> rfl
    · rw [List.getElem?_eq_none (by simpa using hk)] at hp'
      simp at hp'
  -- distance of a vertex from the start
  have d0 : ∀ (k : Nat) p, S[k + 1]? = some p → sqDist n p initial = l ^ 2 := by
    intro k p hp
    obtain ⟨hk, hp'⟩ := hS k p hp
    have hnp : (n : R) ≠ 0 := by
      have : 0 < n := by omega
      exact_mod_cast this.ne'
    have : sqDist n p initial = ∑ j ∈ Finset.range n, (if j = k then r1 else r2) ^ 2 := by
      refine Finset.sum_congr rfl fun j hj => ?_
      rw [hp' j (Finset.mem_range.1 hj), add_sub_cancel_left]
    rw [this, sum_ite_one n k hk, hr1, hr2]
    set s := sqrt ((n : R) + 1)
    set t := sqrt 2
    have hd : ((n : R) * t) ^ 2 = 2 * (n : R) ^ 2 := by rw [mul_pow, pow_two t, t1]; ring
    rw [div_pow, div_pow, hd, ← mul_div_assoc, ← add_div, div_eq_iff (by positivity)]
    have s2 : s ^ 2 = (n : R) + 1 := by rw [pow_two]; exact s1
    have : (l * (s + n - 1)) ^ 2 + ((n : R) - 1) * (l * (s - 1)) ^ 2 = l ^ 2 * ((n : R) * s ^ 2 + (n : R) ^ 2 - n) := by ring
    rw [this, s2]
    ring
  have sym : ∀ p q : List R, sqDist n p q = sqDist n q p := by
    intro p q
    exact Finset.sum_congr rfl fun j _ => by ring
  intro i j p q hi hj hij
  match i, j with
  | 0, 0 => exact absurd rfl hij
  | i + 1, 0 =>
    obtain rfl : initial = q := by simpa [S, regularSimplex] using hj
    exact d0 i p hi
  | 0, j + 1 =>
    obtain rfl : initial = p := by simpa [S, regularSimplex] using hi
    rw [sym]; exact d0 j q hj
  | i + 1, j + 1 =>
    obtain ⟨hi1, hi2⟩ := hS i p hi
    obtain ⟨hj1, hj2⟩ := hS j q hj
    have : sqDist n p q = ∑ k ∈ Finset.range n, ((if k = i then r1 else r2) - (if k = j then r1 else r2)) ^ 2 := by
      refine Finset.sum_congr rfl fun k hk => ?_
      rw [hi2 k (Finset.mem_range.1 hk), hj2 k (Finset.mem_range.1 hk)]
      ring
    rw [this, sum_ite_two n i j hi1 hj1 (by omega)]
    have hnp : (n : R) ≠ 0 := by
      have : 0 < n := by omega
      exact_mod_cast this.ne'
    have hd : r1 - r2 = l / sqrt 2 := by
      rw [hr1, hr2]
      field_simp
      ring
    rw [hd, div_pow, pow_two (sqrt 2), t1]
    ring

end K52.NelderMead

namespace K52.NelderMead

/-- Non-vacuity of the hypotheses about the square root: the real one. -/
example : SqrtOk Real.sqrt := fun x hx => ⟨Real.sqrt_nonneg x, Real.mul_self_sqrt hx⟩

/-- Non-vacuity of `C42_run`: a start whose simplex lies within the bounds (any square root with `√2 ≠ 0`). -/
example : ∀ p ∈ regularSimplex Real.sqrt [3] 1, InBounds (⟨1, 1, 0, 10⟩ : Config ℝ) p := by
  rw [simplex_one _ (by norm_num)]
  intro p hp
  simp only [List.mem_cons, List.not_mem_nil, or_false] at hp
  rcases hp with rfl | rfl <;> (intro x hx; simp at hx; subst hx; norm_num)

end K52.NelderMead
