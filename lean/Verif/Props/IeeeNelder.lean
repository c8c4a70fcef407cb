import Verif.Props.IeeeHooke
import Verif.Props.NanNelder
import Verif.Props.NelderMead
import Verif.Lemmas.DoubleError

/-!
# C114: Nelder-Mead in IEEE arithmetic
-/

set_option linter.unusedSectionVars false

namespace K52.NelderMead

/-! ## Runs in an arbitrary arithmetic -/

section Any
variable {R : Type} [Add R] [Sub R] [Mul R] [Div R] [Neg R] [Zero R] [One R] [NatCast R] [LT R] [LE R] [DecidableLT R] [DecidableLE R]

theorem any_getIndexes {V : List R} (h : 2 ≤ V.length) :
    ∃ s, getIndexes V = .ok s ∧ s.first < V.length ∧ s.min < V.length := by
  match V, h with
  | v0 :: v1 :: vs, _ =>
    have key : ∀ (vs : List R) (i : Nat) (s : Idx R), s.first < i → s.min < i →
        (indexLoop i vs s).first < i + vs.length ∧ (indexLoop i vs s).min < i + vs.length := by
      intro vs
      induction vs with
      | nil => intro i s h1 h2; exact ⟨h1, h2⟩
      | cons v vs ih =>
        intro i s h1 h2
        simp only [indexLoop, List.length_cons]
        rw [show i + (vs.length + 1) = i + 1 + vs.length by omega]
        apply ih
        · split <;> split <;> (try split) <;> (try simp only []) <;> omega
        · split <;> split <;> (try split) <;> (try simp only []) <;> omega
    refine ⟨_, rfl, ?_⟩
    have := key vs 2 (if v0 > v1 then ⟨0, v0, 1, v1, 1, v1⟩ else ⟨1, v1, 0, v0, 0, v0⟩) (by split <;> simp) (by split <;> simp)
    rw [show (v0 :: v1 :: vs).length = 2 + vs.length by simp; omega]
    exact this

theorem any_headD {n : Nat} {P : List (List R)} {V : List R} (h : Shape n P V) : (P.headD []).length = n := by
  cases P with
  | nil => have := h.count; simp at this
  | cons p ps => exact h.dim p (by simp)

theorem any_set {n : Nat} {P : List (List R)} {V : List R} (h : Shape n P V) (i : Nat) {p : List R} (v : R) (hp : p.length = n) :
    Shape n (P.set i p) (V.set i v) := by
  refine ⟨h.pos, by simp [h.count], ?_, by simp [h.vals]⟩
  intro q hq
  rcases List.mem_or_eq_of_mem_set hq with hq | rfl
  · exact h.dim q hq
  · exact hp

theorem any_forall_set {A : List R → Prop} {P : List (List R)} (h : ∀ p ∈ P, A p) {i : Nat} {p : List R} (hp : A p) :
    ∀ q ∈ P.set i p, A q := by
  intro q hq
  rcases List.mem_or_eq_of_mem_set hq with hq | rfl
  · exact h q hq
  · exact hp

/-- How predicates on points go through an iteration: `A` for the vertices and the projected points, `C` for the centre, `D` for the result. -/
structure Passes (cfg : Config R) (P : List (List R)) (A C D : List R → Prop) : Prop where
  before : ∀ p ∈ P, A p
  centre : ∀ i c, centerOfMass P i = .ok c → C c
  reflected : ∀ c t, C c → A t → A (project cfg (reflexion c t))
  expanded : ∀ c t, C c → A t → A (project cfg (expansion c t))
  contracted : ∀ c t, C c → A t → D (contraction c t)
  reduced : ∀ b x, A b → A x → D (List.zipWith (fun b x => b + 1 / 2 * (x - b)) b x)
  weaker : ∀ p, A p → D p

/-- What an iteration does. -/
structure Step (g : List R → R) (cfg : Config R) (n : Nat) (P : List (List R)) (V : List R) (P' : List (List R)) (V' : List R) : Prop where
  eval : (body cfg P V).eval g = .ok (P', V')
  shape : Shape n P' V'
  asked : ((body cfg P V).trace g).length ≤ 2
  dims : ∀ x ∈ (body cfg P V).trace g, x.length = n
  first : ∃ q, ((body cfg P V).trace g)[0]? = some (project cfg q)
  passes : ∀ A C D, Passes cfg P A C D → (∀ p ∈ P', D p) ∧ ∀ x ∈ (body cfg P V).trace g, D x

theorem any_reduction {n : Nat} {P : List (List R)} {V : List R} (h : Shape n P V) {i : Nat} (hi : i < P.length) :
    ∃ P', reduction P i = .ok P' ∧ Shape n P' V ∧ ∀ A D : List R → Prop, (∀ p ∈ P, A p) →
      (∀ b x, A b → A x → D (List.zipWith (fun b x => b + 1 / 2 * (x - b)) b x)) → (∀ p, A p → D p) → ∀ p ∈ P', D p := by
  have e : P[i]? = some P[i] := List.getElem?_eq_getElem hi
  unfold reduction
  rw [e]
  have hb : P[i].length = n := h.dim _ (List.getElem_mem hi)
  refine ⟨_, rfl, ⟨h.pos, by simp [h.count], ?_, h.vals⟩, ?_⟩
  · intro p hp
    obtain ⟨j, hj, rfl⟩ := List.mem_mapIdx.1 hp
    have hjl : P[j].length = n := h.dim _ (List.getElem_mem hj)
    split
    · simp [hb, hjl]
    · exact hjl
  · intro A D hA hr hw p hp
    obtain ⟨j, hj, rfl⟩ := List.mem_mapIdx.1 hp
    split
    · exact hr _ _ (hA _ (List.getElem_mem hi)) (hA _ (List.getElem_mem hj))
    · exact hw _ (hA _ (List.getElem_mem hj))

theorem any_body (g : List R → R) (cfg : Config R) {n : Nat} {P : List (List R)} {V : List R} (h : Shape n P V) :
    ∃ P' V', Step g cfg n P V P' V' := by
  obtain ⟨s, es, hl, hm⟩ := any_getIndexes (V := V) (by rw [h.vals]; have := h.pos; omega)
  have hlp : s.first < P.length := by rw [h.count, ← h.vals]; exact hl
  have hmp : s.min < P.length := by rw [h.count, ← h.vals]; exact hm
  obtain ⟨c, ec, hc⟩ : ∃ c, centerOfMass P s.first = .ok c ∧ c.length = n := by
    unfold centerOfMass
    rw [if_neg (by omega), any_headD h]
    exact ⟨_, rfl, by simp⟩
  have ew : P[s.first]? = some P[s.first] := List.getElem?_eq_getElem hlp
  have hwm : P[s.first] ∈ P := List.getElem_mem hlp
  set worst := P[s.first] with hw
  have hwl : worst.length = n := h.dim _ hwm
  set reflected := project cfg (reflexion c worst) with hr
  have hrl : reflected.length = n := by simp [hr, project, reflexion, hc, hwl]
  set expanded := project cfg (expansion c reflected) with hex
  have hexl : expanded.length = n := by simp [hex, project, expansion, hc, hrl]
  have pr : ∀ A C D, Passes cfg P A C D → A reflected ∧ A expanded ∧ A worst ∧ D (contraction c worst) ∧ D (contraction c reflected) := by
    intro A C D hp
    have h1 := hp.reflected c worst (hp.centre _ _ ec) (hp.before _ hwm)
    exact ⟨h1, hp.expanded c _ (hp.centre _ _ ec) h1, hp.before _ hwm, hp.contracted _ _ (hp.centre _ _ ec) (hp.before _ hwm),
      hp.contracted _ _ (hp.centre _ _ ec) h1⟩
  by_cases c1 : g reflected < s.minV
  · have htr : (body cfg P V).trace g = [reflected, expanded] := by
      by_cases c2 : g expanded < g reflected <;>
        simp [body, es, ec, ew, Prog.lift, Prog.askMin, ← hr, ← hex, c1, c2, Prog.trace]
    have hD : ∀ A C D, Passes cfg P A C D → ∀ x ∈ (body cfg P V).trace g, D x := by
      intro A C D hp
      obtain ⟨p1, p2, -⟩ := pr A C D hp
      simp [htr, hp.weaker _ p1, hp.weaker _ p2]
    by_cases c2 : g expanded < g reflected
    · refine ⟨P.set s.first expanded, V.set s.first (g expanded), ?_, any_set h _ _ hexl, by simp [htr], by simp [htr, hrl, hexl], ⟨_, by rw [htr, hr]; rfl⟩, ?_⟩
      · simp [body, es, ec, ew, Prog.lift, Prog.askMin, ← hr, ← hex, c1, c2, Prog.eval]
      · intro A C D hp
        exact ⟨any_forall_set (fun p hpp => hp.weaker _ (hp.before p hpp)) (hp.weaker _ (pr A C D hp).2.1), hD A C D hp⟩
    · refine ⟨P.set s.first reflected, V.set s.first (g reflected), ?_, any_set h _ _ hrl, by simp [htr], by simp [htr, hrl, hexl], ⟨_, by rw [htr, hr]; rfl⟩, ?_⟩
      · simp [body, es, ec, ew, Prog.lift, Prog.askMin, ← hr, ← hex, c1, c2, Prog.eval]
      · intro A C D hp
        exact ⟨any_forall_set (fun p hpp => hp.weaker _ (hp.before p hpp)) (hp.weaker _ (pr A C D hp).1), hD A C D hp⟩
  · by_cases c2 : g reflected ≤ s.secondV
    · have htr : (body cfg P V).trace g = [reflected] := by
        simp [body, es, ec, ew, Prog.lift, Prog.askMin, ← hr, c1, c2, Prog.trace]
      refine ⟨P.set s.first reflected, V.set s.first (g reflected), ?_, any_set h _ _ hrl, by simp [htr], by simp [htr, hrl], ⟨_, by rw [htr, hr]; rfl⟩, ?_⟩
      · simp [body, es, ec, ew, Prog.lift, Prog.askMin, ← hr, c1, c2, Prog.eval]
      · intro A C D hp
        refine ⟨any_forall_set (fun p hpp => hp.weaker _ (hp.before p hpp)) (hp.weaker _ (pr A C D hp).1), ?_⟩
        simp [htr, hp.weaker _ (pr A C D hp).1]
    · obtain ⟨Q, W, w, T, hQ, hW, hT, hsh, hTl, hw2, hQA, hTD⟩ : ∃ (Q : List (List R)) (W : List R) (w : R) (T : List R),
          Q = (if decide (g reflected < s.firstV) then P.set s.first reflected else P) ∧
          W = (if decide (g reflected < s.firstV) then V.set s.first (g reflected) else V) ∧
          T = contraction c (if decide (g reflected < s.firstV) then reflected else worst) ∧
          Shape n Q W ∧ T.length = n ∧
          w = (if decide (g reflected < s.firstV) then g reflected else s.firstV) ∧
          (∀ A C D, Passes cfg P A C D → ∀ p ∈ Q, A p) ∧ (∀ A C D, Passes cfg P A C D → D T) := by
        by_cases c3 : g reflected < s.firstV
        · refine ⟨_, _, g reflected, _, rfl, rfl, rfl, ?_⟩
          simp only [c3, decide_true, if_true]
          exact ⟨any_set h _ _ hrl, by simp [contraction, hc, hrl], trivial, fun A C D hp => any_forall_set hp.before (pr A C D hp).1,
            fun A C D hp => (pr A C D hp).2.2.2.2⟩
        · refine ⟨_, _, s.firstV, _, rfl, rfl, rfl, ?_⟩
          simp only [c3, decide_false, Bool.false_eq_true, if_false]
          exact ⟨h, by simp [contraction, hc, hwl], trivial, fun A C D hp => hp.before, fun A C D hp => (pr A C D hp).2.2.2.1⟩
      simp only [decide_eq_true_eq] at hQ hW hT hw2
      obtain ⟨P', eP', hsh', hred⟩ := any_reduction hsh (i := s.min) (by rw [hsh.count, ← h.count]; exact hmp)
      by_cases c4 : g T > w
      · have htr : (body cfg P V).trace g = [reflected, T] := by
          simp [body, es, ec, ew, Prog.lift, Prog.askMin, ← hr, c1, c2, Prog.trace]
          rw [← hQ, ← hW, ← hT, ← hw2, if_pos c4, eP']
          exact ⟨rfl, rfl⟩
        refine ⟨P', W, ?_, hsh', by simp [htr], by simp [htr, hrl, hTl], ⟨_, by rw [htr, hr]; rfl⟩, ?_⟩
        · simp [body, es, ec, ew, Prog.lift, Prog.askMin, ← hr, c1, c2, Prog.eval]
          rw [← hQ, ← hW, ← hT, ← hw2, if_pos c4, eP']
          rfl
        · intro A C D hp
          refine ⟨hred A D (hQA A C D hp) hp.reduced hp.weaker, ?_⟩
          simp [htr, hp.weaker _ (pr A C D hp).1, hTD A C D hp]
      · have htr : (body cfg P V).trace g = [reflected, T] := by
          simp [body, es, ec, ew, Prog.lift, Prog.askMin, ← hr, c1, c2, Prog.trace]
          rw [← hQ, ← hW, ← hT, ← hw2, if_neg c4]
          exact ⟨rfl, rfl⟩
        refine ⟨Q.set s.first T, W.set s.first (g T), ?_, any_set hsh _ _ hTl, by simp [htr], by simp [htr, hrl, hTl], ⟨_, by rw [htr, hr]; rfl⟩, ?_⟩
        · simp [body, es, ec, ew, Prog.lift, Prog.askMin, ← hr, c1, c2, Prog.eval]
          rw [← hQ, ← hW, ← hT, ← hw2, if_neg c4]
          rfl
        · intro A C D hp
          refine ⟨any_forall_set (fun p hpp => hp.weaker _ (hQA A C D hp p hpp)) (hTD A C D hp), ?_⟩
          simp [htr, hp.weaker _ (pr A C D hp).1, hTD A C D hp]

theorem any_rowDifference : ∀ (p q : List R) (acc : R), p.length = q.length → ∃ d, rowDifference acc p q = .ok d
  | [], _, acc, _ => ⟨acc, rfl⟩
  | x :: xs, y :: ys, acc, h => any_rowDifference xs ys _ (by simpa using h)
  | _ :: _, [], _, h => by simp at h

theorem any_polygonDifference (n : Nat) : ∀ (P Q : List (List R)) (acc : R), P.length = Q.length → (∀ p ∈ P, p.length = n) →
    (∀ q ∈ Q, q.length = n) → ∃ d, polygonDifference acc P Q = .ok d
  | [], _, acc, _, _, _ => ⟨acc, rfl⟩
  | p :: ps, q :: qs, acc, h, hp, hq => by
    obtain ⟨d, e⟩ := any_rowDifference p q acc (by rw [hp p (by simp), hq q (by simp)])
    simp only [polygonDifference, e, Res.ok_bind]
    exact any_polygonDifference n ps qs d (by simpa using h) (fun p hp' => hp p (by simp [hp'])) (fun q hq' => hq q (by simp [hq']))
  | _ :: _, [], _, h, _, _ => by simp at h

theorem any_sameLoop {n : Nat} {P : List (List R)} (hP : Polygon n P) : ∀ (Qs : List (List (List R))), (∀ Q ∈ Qs, Polygon n Q) →
    ∃ b, sameLoop P Qs = .ok b
  | [], _ => ⟨false, rfl⟩
  | Q :: Qs, h => by
    have hQ := h Q (by simp)
    obtain ⟨d, e⟩ := any_polygonDifference n P Q 0 (by rw [hP.1, hQ.1]) hP.2 hQ.2
    simp only [sameLoop, e, Res.ok_bind]
    split
    · exact ⟨true, rfl⟩
    · exact any_sameLoop hP Qs (fun Q hQ => h Q (by simp [hQ]))

theorem any_goOn (sqrt : R → R) (cfg : Config R) (r : Nat) {n : Nat} {P : List (List R)} {V : List R} (h : Shape n P V)
    {previous : List (List (List R))} (hp : PrevOk n previous) :
    ∃ b previous', goOn sqrt cfg r V P previous = .ok (b, previous') ∧ PrevOk n previous' ∧ (b = true → r ≤ 1000 * n) := by
  unfold goOn
  rw [any_headD h]
  by_cases c : r > 1000 * n
  · rw [if_pos c]
    exact ⟨false, previous, rfl, hp, by simp⟩
  · rw [if_neg c]
    obtain ⟨s, es⟩ := any_sameLoop ⟨h.count, h.dim⟩ previous hp.2
    have hprev : PrevOk n ((if previous.length ≥ 10 then previous.tail else previous) ++ [P]) := by
      constructor
      · split
        · have := hp.1; simp; omega
        · simp; omega
      · intro Q hQ
        rw [List.mem_append] at hQ
        rcases hQ with hQ | hQ
        · split at hQ
          · exact hp.2 Q (List.mem_of_mem_tail hQ)
          · exact hp.2 Q hQ
        · simp only [List.mem_singleton] at hQ; subst hQ; exact ⟨h.count, h.dim⟩
    simp only [wasSame, es, Res.ok_bind, Res.pure_eq]
    cases s with
    | true => exact ⟨false, _, rfl, hprev, by simp⟩
    | false => exact ⟨_, _, rfl, hprev, fun _ => by omega⟩

/-- The outcome of the loop; `D r` is any predicate that iteration `r` establishes if `D (r - 1)` held before it. -/
theorem any_loop (sqrt : R → R) (g : List R → R) (cfg : Config R) {n : Nat} : ∀ (fuel r : Nat) (P : List (List R)) (V : List R)
    (previous : List (List (List R))), Shape n P V → PrevOk n previous → r ≤ 1000 * n → 1000 * n + 1 ≤ r + fuel →
    ∃ F, (loop sqrt cfg fuel r P V previous).eval g = .ok F ∧ Shape n F.polygon F.values ∧ PrevOk n F.previous ∧
      r < F.iterations ∧ F.iterations ≤ 1000 * n + 1 ∧
      ((loop sqrt cfg fuel r P V previous).trace g).length ≤ 2 * (F.iterations - r) ∧
      (∀ x ∈ (loop sqrt cfg fuel r P V previous).trace g, x.length = n) ∧
      ∀ D : Nat → List R → Prop, (∀ p ∈ P, D r p) → (∀ k p, D k p → D (k + 1) p) →
        (∀ (k : Nat) (Q : List (List R)) (W : List R), k ≤ 1000 * n → Shape n Q W → (∀ p ∈ Q, D k p) → ∃ C, Passes cfg Q (D k) C (D (k + 1))) →
        (∀ p ∈ F.polygon, D F.iterations p) ∧ ∀ x ∈ (loop sqrt cfg fuel r P V previous).trace g, D F.iterations x
  | 0, r, _, _, _, _, _, hr, hf => by omega
  | fuel + 1, r, P, V, previous, hs, hp, hr, hf => by
    obtain ⟨P', V', hit⟩ := any_body g cfg hs
    obtain ⟨b, prev', eg, hp', hb⟩ := any_goOn sqrt cfg (r + 1) hit.shape hp
    cases b with
    | false =>
      have hev : (loop sqrt cfg (fuel + 1) r P V previous).eval g = .ok ⟨P', V', prev', r + 1⟩ := by
        simp only [loop, Prog.eval_bind, hit.eval, Res.ok_bind, Prog.eval_lift, eg]
        rfl
      have htr : (loop sqrt cfg (fuel + 1) r P V previous).trace g = (body cfg P V).trace g := by
        simp only [loop, Prog.trace_bind, hit.eval, Prog.eval_lift, eg, Prog.trace_lift]
        simp
      refine ⟨_, hev, hit.shape, hp', by simp, by simp only; omega, ?_, ?_, ?_⟩
      · rw [htr]
        have := hit.asked
        simp only
        omega
      · rw [htr]; exact hit.dims
      · intro D h0 h1 h2
        rw [htr]
        obtain ⟨C, hC⟩ := h2 r P V hr hs h0
        exact hit.passes _ C _ hC
    | true =>
      obtain ⟨F, ev, s1, s2, s3, s4, s5, s6, s7⟩ := any_loop sqrt g cfg fuel (r + 1) P' V' prev' hit.shape hp' (hb rfl) (by omega)
      have hev : (loop sqrt cfg (fuel + 1) r P V previous).eval g = .ok F := by
        simp only [loop, Prog.eval_bind, hit.eval, Res.ok_bind, Prog.eval_lift, eg]
        exact ev
      have htr : (loop sqrt cfg (fuel + 1) r P V previous).trace g =
          (body cfg P V).trace g ++ (loop sqrt cfg fuel (r + 1) P' V' prev').trace g := by
        simp only [loop, Prog.trace_bind, hit.eval, Prog.eval_lift, eg, Prog.trace_lift]
        simp
      refine ⟨F, hev, s1, s2, by omega, s4, ?_, ?_, ?_⟩
      · rw [htr, List.length_append]
        have := hit.asked
        omega
      · rw [htr]
        intro x hx
        rcases List.mem_append.1 hx with hx | hx
        · exact hit.dims x hx
        · exact s6 x hx
      · intro D h0 h1 h2
        rw [htr]
        obtain ⟨C, hC⟩ := h2 r P V hr hs h0
        obtain ⟨d1, d2⟩ := hit.passes _ C _ hC
        obtain ⟨d3, d4⟩ := s7 D d1 h1 h2
        refine ⟨d3, fun x hx => ?_⟩
        rcases List.mem_append.1 hx with hx | hx
        · have hle : r + 1 ≤ F.iterations := s3.le
          have up : ∀ m, r + 1 ≤ m → D m x := by
            intro m hm
            induction m, hm using Nat.le_induction with
            | base => exact d2 x hx
            | succ m _ ih => exact h1 m x ih
          exact up _ hle
        · exact d4 x hx

theorem any_maxElement : ∀ (vs : List R) (k : Nat) (v : R) (i : Nat), k < i → Grid.maxElement k v i vs < i + vs.length
  | [], k, v, i, h => h
  | w :: vs, k, v, i, h => by
    simp only [Grid.maxElement, List.length_cons]
    rw [show i + (vs.length + 1) = i + 1 + vs.length by omega]
    split
    · exact any_maxElement vs i w (i + 1) (by omega)
    · exact any_maxElement vs k v (i + 1) (by omega)

theorem any_countAll (g : List R → R) : ∀ (ps : List (List R)), (countAll ps).eval g = .ok (ps.map g) ∧ (countAll ps).trace g = ps
  | [] => ⟨rfl, rfl⟩
  | p :: ps => by
    obtain ⟨h1, h2⟩ := any_countAll g ps
    constructor
    · simp [countAll, Prog.askMin, Prog.eval, Prog.eval_bind, h1]
    · simp [countAll, Prog.askMin, Prog.trace, Prog.trace_bind, h1, h2]

theorem any_simplex (sqrt : R → R) (initial : List R) (l : R) : Polygon initial.length (regularSimplex sqrt initial l) := by
  constructor
  · simp [regularSimplex]
  · intro p hp
    simp only [regularSimplex, List.mem_cons, List.mem_map] at hp
    rcases hp with rfl | ⟨i, _, rfl⟩
    · rfl
    · simp

/-- The whole call. -/
theorem any_find (sqrt : R → R) (g : List R → R) (cfg : Config R) (initial : List R) (hne : initial ≠ [])
    (previous : List (List (List R))) (hp : PrevOk initial.length previous) (fuel : Nat) (hf : 1000 * initial.length + 1 ≤ fuel) :
    ∃ F p, (search sqrt cfg fuel previous initial).eval g = .ok F ∧ (find sqrt cfg fuel previous initial).eval g = .ok (p, F.previous) ∧
      p ∈ F.polygon ∧ Shape initial.length F.polygon F.values ∧ PrevOk initial.length F.previous ∧
      1 ≤ F.iterations ∧ F.iterations ≤ 1000 * initial.length + 1 ∧
      ((find sqrt cfg fuel previous initial).trace g).length ≤ initial.length + 1 + 2 * F.iterations ∧
      (∀ x ∈ (find sqrt cfg fuel previous initial).trace g, x.length = initial.length) ∧
      ∀ D : Nat → List R → Prop, (∀ p ∈ regularSimplex sqrt initial cfg.l, D 0 p) → (∀ k p, D k p → D (k + 1) p) →
        (∀ (k : Nat) (Q : List (List R)) (W : List R), k ≤ 1000 * initial.length → Shape initial.length Q W → (∀ p ∈ Q, D k p) →
          ∃ C, Passes cfg Q (D k) C (D (k + 1))) →
        D F.iterations p ∧ ∀ x ∈ (find sqrt cfg fuel previous initial).trace g, D F.iterations x := by
  have hpos : 1 ≤ initial.length := List.length_pos_iff.2 hne
  obtain ⟨q1, q2⟩ := any_simplex sqrt initial cfg.l
  have hs : Shape initial.length (regularSimplex sqrt initial cfg.l) ((regularSimplex sqrt initial cfg.l).map g) :=
    ⟨hpos, q1, q2, by simp [q1]⟩
  obtain ⟨F, ev, s1, s2, s3, s4, s5, s6, s7⟩ := any_loop sqrt g cfg fuel 0 _ _ previous hs hp (by omega) (by omega)
  obtain ⟨a1, a2⟩ := any_countAll g (regularSimplex sqrt initial cfg.l)
  have e : (search sqrt cfg fuel previous initial).eval g = .ok F := by
    simp only [search, Prog.eval_bind, a1, Res.ok_bind]; exact ev
  have ht : (search sqrt cfg fuel previous initial).trace g = regularSimplex sqrt initial cfg.l ++
      (loop sqrt cfg fuel 0 (regularSimplex sqrt initial cfg.l) ((regularSimplex sqrt initial cfg.l).map g) previous).trace g := by
    simp only [search, Prog.trace_bind, a1, a2]
  obtain ⟨p, er, hpm⟩ : ∃ p, result F = .ok p ∧ p ∈ F.polygon := by
    match hV : F.values with
    | [] => have := s1.vals; rw [hV] at this; simp at this
    | v :: vs =>
      have hlt : Grid.maxElement 0 v 1 vs < F.polygon.length := by
        have := any_maxElement vs 0 v 1 (by omega)
        rw [s1.count, ← s1.vals, hV, List.length_cons]
        omega
      refine ⟨F.polygon[Grid.maxElement 0 v 1 vs], ?_, List.getElem_mem hlt⟩
      simp only [result, hV, List.getElem?_eq_getElem hlt]
  have htr : (find sqrt cfg fuel previous initial).trace g = regularSimplex sqrt initial cfg.l ++
      (loop sqrt cfg fuel 0 (regularSimplex sqrt initial cfg.l) ((regularSimplex sqrt initial cfg.l).map g) previous).trace g := by
    simp [find, Prog.trace_bind, e, ht, er]
  refine ⟨F, p, e, by simp [find, Prog.eval_bind, e, er], hpm, s1, s2, by omega, s4, ?_, ?_, ?_⟩
  · rw [htr, List.length_append, q1]
    omega
  · rw [htr]
    intro x hx
    rcases List.mem_append.1 hx with hx | hx
    · exact q2 x hx
    · exact s6 x hx
  · intro D h0 h1 h2
    obtain ⟨d1, d2⟩ := s7 D h0 h1 h2
    refine ⟨d1 p hpm, ?_⟩
    rw [htr]
    intro x hx
    rcases List.mem_append.1 hx with hx | hx
    · have up : ∀ m, D m x := by
        intro m
        induction m with
        | zero => exact h0 x hx
        | succ m ih => exact h1 m x ih
      exact up _
    · exact d2 x hx

/-- **C114 (the call returns).** In every arithmetic – whatever the operations, comparisons, square root and function do – a call on an object
so far used in this dimension (or not at all) returns after at most `1000·n + 1` iterations, having evaluated the function at most
`(n + 1) + 2·iterations` times, always at points of the dimension of the start; a start without coordinates throws. -/
theorem C114_terminates (sqrt : R → R) (g : List R → R) (cfg : Config R) (initial : List R)
    (previous : List (List (List R))) (hp : PrevOk initial.length previous) (fuel : Nat) (hf : 1000 * initial.length + 1 ≤ fuel) :
    (initial = [] → ((find sqrt cfg fuel previous initial).eval g).threw) ∧
    (initial ≠ [] → ∃ F p, (search sqrt cfg fuel previous initial).eval g = .ok F ∧
      (find sqrt cfg fuel previous initial).eval g = .ok (p, F.previous) ∧ p ∈ F.polygon ∧
      p.length = initial.length ∧ PrevOk initial.length F.previous ∧
      1 ≤ F.iterations ∧ F.iterations ≤ 1000 * initial.length + 1 ∧
      ((find sqrt cfg fuel previous initial).trace g).length ≤ initial.length + 1 + 2 * F.iterations ∧
      ∀ x ∈ (find sqrt cfg fuel previous initial).trace g, x.length = initial.length) := by
  constructor
  · rintro rfl
    obtain ⟨m, rfl⟩ : ∃ m, fuel = m + 1 := ⟨fuel - 1, by simp at hf; omega⟩
    simp [find, search, regularSimplex, countAll, Prog.askMin, Prog.eval, loop, body, getIndexes, Prog.lift]
  · intro hne
    obtain ⟨F, p, e1, e2, h1, h2, h3, h4, h5, h6, h7, -⟩ := any_find sqrt g cfg initial hne previous hp fuel hf
    exact ⟨F, p, e1, e2, h1, h2.dim p h1, h3, h4, h5, h6, h7⟩

end Any

/-! ## How far rounding leads out of the bounds -/

section Bounds
open Flt
variable {F : Format}

/-- A finite number between `L - e` and `U + e`. -/
def Within (L U e : ℚ) (x : Flt F) : Prop := ∃ q, x.val = .num q ∧ L - e ≤ q ∧ q ≤ U + e

theorem Within.mono {L U e e' : ℚ} {x : Flt F} (h : Within L U e x) (he : e ≤ e') : Within L U e' x := by
  obtain ⟨q, h1, h2, h3⟩ := h
  exact ⟨q, h1, by linarith, by linarith⟩

theorem Within.abs {L U e M : ℚ} {x : Flt F} (h : Within L U e x) (hL : |L| ≤ M) (hU : |U| ≤ M) (he : e ≤ M) :
    ∃ q, x.val = .num q ∧ |q| ≤ 2 * M ∧ L - e ≤ q ∧ q ≤ U + e := by
  obtain ⟨q, h1, h2, h3⟩ := h
  have a := abs_le.1 hL
  have b := abs_le.1 hU
  exact ⟨q, h1, abs_le.2 ⟨by linarith, by linarith⟩, h2, h3⟩

/-- What is assumed of the format, the dimension and the bounds. -/
structure Room (F : Format) (n : Nat) (L U M : ℚ) : Prop where
  lower : |L| ≤ M
  upper : |U| ≤ M
  ordered : L ≤ U
  normal : F.least ≤ M
  overflow : (4 * n + 16) * M ≤ 2 ^ (F.emax - 1)
  dimension : (n : ℚ) ≤ 2 ^ (F.emax - 1)
  positive : 1 ≤ n
  digits : (4 * n + 16) * (1000 * n + 1) ≤ 2 ^ F.p

theorem prec_le : (1 : ℚ) / 2 ^ F.p ≤ 1 / 4 := by
  refine one_div_le_one_div_of_le (by norm_num) ?_
  have := pow_le_pow_right₀ (show (1 : ℚ) ≤ 2 by norm_num) F.two_le_p
  linarith

theorem Room.nu {n : Nat} {L U M : ℚ} (h : Room F n L U M) : 2 * (n : ℚ) * (1 / 2 ^ F.p) ≤ 1 := by
  rw [mul_one_div, div_le_one (by positivity)]
  have h1 := h.digits
  have h2 : 2 * n ≤ (4 * n + 16) * (1000 * n + 1) := by nlinarith
  exact_mod_cast h2.trans h1

theorem Room.pos {n : Nat} {L U M : ℚ} (h : Room F n L U M) : 0 < M := lt_of_lt_of_le F.least_pos h.normal

theorem Room.twenty {n : Nat} {L U M : ℚ} (h : Room F n L U M) : 20 * M ≤ 2 ^ (F.emax - 1) := by
  refine le_trans ?_ h.overflow
  have : (1 : ℚ) ≤ n := by exact_mod_cast h.positive
  nlinarith [h.pos]

/-- A point half way between two others. -/
theorem within_half {n : Nat} {L U M e : ℚ} (r : Room F n L U M) (he : e ≤ M) {x y : Flt F} (hx : Within L U e x) (hy : Within L U e y) :
    Within L U (e + 10 * (1 / 2 ^ F.p) * M) (x + 1 / 2 * (y - x)) := by
  have hM := r.pos
  have h20 := r.twenty
  have hu := prec_le (F := F)
  have hn := r.normal
  obtain ⟨c, hc, hc1, hc2, hc3⟩ := hx.abs r.lower r.upper he
  obtain ⟨t, ht, ht1, ht2, ht3⟩ := hy.abs r.lower r.upper he
  have c1 := abs_le.1 hc1
  have t1 := abs_le.1 ht1
  have htc : |t - c| ≤ 4 * M := abs_le.2 ⟨by linarith, by linarith⟩
  obtain ⟨d, hd, hd1⟩ := sub_num ht hc (htc.trans (by linarith))
  have hu0 : (0 : ℚ) < 1 / 2 ^ F.p := by positivity
  have sc : ∀ {z K : ℚ}, |z| ≤ K → |z| / 2 ^ F.p ≤ K * (1 / 2 ^ F.p) := by
    intro z K hz
    rw [mul_one_div]
    exact div_le_div_of_nonneg_right hz (by positivity)
  have hl : F.least / 2 ^ F.p ≤ M * (1 / 2 ^ F.p) := by
    rw [mul_one_div]
    exact div_le_div_of_nonneg_right hn (by positivity)
  have hMu : M * (1 / 2 ^ F.p) ≤ M * (1 / 4) := mul_le_mul_of_nonneg_left hu hM.le
  have hMu0 : 0 < M * (1 / 2 ^ F.p) := by positivity
  rw [show 10 * (1 / 2 ^ F.p) * M = 10 * (M * (1 / 2 ^ F.p)) by ring]
  have d2 := abs_le.1 (hd1.trans (sc htc))
  rw [show 4 * M * (1 / 2 ^ F.p) = 4 * (M * (1 / 2 ^ F.p)) by ring] at d2
  have hdd : |1 / 2 * d| ≤ 5 / 2 * M := by
    have := abs_le.1 htc
    exact abs_le.2 ⟨by linarith, by linarith⟩
  obtain ⟨k, hk, hk1⟩ := mul_num half_val hd (hdd.trans (by linarith))
  have k2 := abs_le.1 (hk1.trans (add_le_add (sc hdd) hl))
  rw [show 5 / 2 * M * (1 / 2 ^ F.p) + M * (1 / 2 ^ F.p) = 7 / 2 * (M * (1 / 2 ^ F.p)) by ring] at k2
  have hck : |c + k| ≤ 4 * M := abs_le.2 ⟨by linarith, by linarith⟩
  obtain ⟨s, hs, hs1⟩ := add_num hc hk (hck.trans (by linarith))
  have s2 := abs_le.1 (hs1.trans (sc hck))
  rw [show 4 * M * (1 / 2 ^ F.p) = 4 * (M * (1 / 2 ^ F.p)) by ring] at s2
  exact ⟨s, hs, by linarith, by linarith⟩

theorem within_zip {f : Flt F → Flt F → Flt F} {A B : Flt F → Prop} (hf : ∀ a b, A a → A b → B (f a b)) :
    ∀ {p q : List (Flt F)}, (∀ x ∈ p, A x) → (∀ x ∈ q, A x) → ∀ x ∈ List.zipWith f p q, B x
  | [], _, _, _ => by intro x hx; simp at hx
  | _ :: _, [], _, _ => by intro x hx; simp at hx
  | a :: p, b :: q, hp, hq => by
    intro x hx
    simp only [List.zipWith_cons_cons, List.mem_cons] at hx
    rcases hx with rfl | hx
    · exact hf a b (hp a (by simp)) (hq b (by simp))
    · exact within_zip hf (fun y hy => hp y (by simp [hy])) (fun y hy => hq y (by simp [hy])) x hx

/-- The projection of a finite number. -/
theorem within_project {L U : ℚ} (hLU : L ≤ U) {cfg : Config (Flt F)} (hl : cfg.lower.val = .num L) (hu : cfg.upper.val = .num U)
    {p : List (Flt F)} (hp : ∀ x ∈ p, Finite x) : ∀ x ∈ project cfg p, Within L U 0 x := by
  intro x hx
  simp only [project, List.mem_map] at hx
  obtain ⟨y, hy, rfl⟩ := hx
  obtain ⟨q, hq⟩ := hp y hy
  have e1 : (y > cfg.upper) ↔ U < q := by
    rw [gt_iff_lt, lt_iff, hq, hu, Dbl.lt_def]
    simp [Dbl.ltb]
  have e2 : (y < cfg.lower) ↔ q < L := by
    rw [lt_iff, hq, hl, Dbl.lt_def]
    simp [Dbl.ltb]
  simp only [e1, e2]
  split
  · exact ⟨U, hu, by linarith, by linarith⟩
  · split
    · exact ⟨L, hl, by linarith, by linarith⟩
    · exact ⟨q, hq, by linarith, by linarith⟩

/-- Reflected and expanded coordinates are finite. -/
theorem finite_step {n : Nat} {L U M e : ℚ} (r : Room F n L U M) (he : e ≤ M) {x y k : Flt F} {m : ℚ} (hx : Within L U e x) (hy : Within L U e y)
    (hk : k.val = .num m) (hm : |m| ≤ 2) : Finite (x + k * (y - x)) ∧ Finite (x + k * (x - y)) := by
  have hM := r.pos
  have h20 := r.twenty
  have hu := prec_le (F := F)
  have hn := r.normal
  have hu0 : (0 : ℚ) < 1 / 2 ^ F.p := by positivity
  have sc : ∀ {z K : ℚ}, |z| ≤ K → |z| / 2 ^ F.p ≤ K * (1 / 4) := by
    intro z K hz
    have h0 : 0 ≤ K := (abs_nonneg z).trans hz
    refine (div_le_div_of_nonneg_right hz (by positivity)).trans ?_
    rw [← mul_one_div]
    exact mul_le_mul_of_nonneg_left hu h0
  have hl : F.least / 2 ^ F.p ≤ M * (1 / 4) := by
    rw [← mul_one_div]
    exact (mul_le_mul_of_nonneg_right hn hu0.le).trans (mul_le_mul_of_nonneg_left hu hM.le)
  have key : ∀ {c t : ℚ} {z : Flt F}, x.val = .num c → |c| ≤ 2 * M → (∃ d, z.val = .num d ∧ |d| ≤ 5 * M) → Finite (x + k * z) := by
    rintro c t z hc hc1 ⟨d, hd, hd1⟩
    have hmd : |m * d| ≤ 10 * M := by
      rw [abs_mul]
      have := mul_le_mul hm hd1 (abs_nonneg d) (by norm_num)
      linarith
    obtain ⟨j, hj, hj1⟩ := mul_num hk hd (hmd.trans (by linarith))
    have j2 := abs_le.1 (hj1.trans (add_le_add (sc hmd) hl))
    have m2 := abs_le.1 hmd
    have c2 := abs_le.1 hc1
    obtain ⟨s, hs, -⟩ := add_num hc hj (by
      refine le_trans (abs_le.2 ⟨?_, ?_⟩ : |c + j| ≤ 20 * M) h20 <;> linarith)
    exact ⟨s, hs⟩
  obtain ⟨c, hc, hc1, -, -⟩ := hx.abs r.lower r.upper he
  obtain ⟨t, ht, ht1, -, -⟩ := hy.abs r.lower r.upper he
  have c1 := abs_le.1 hc1
  have t1 := abs_le.1 ht1
  have htc : |t - c| ≤ 4 * M := abs_le.2 ⟨by linarith, by linarith⟩
  have hct : |c - t| ≤ 4 * M := by rw [abs_sub_comm]; exact htc
  obtain ⟨d, hd, hd1⟩ := sub_num ht hc (htc.trans (by linarith))
  obtain ⟨d', hd', hd1'⟩ := sub_num hc ht (hct.trans (by linarith))
  have d2 := abs_le.1 (hd1.trans (sc htc))
  have d2' := abs_le.1 (hd1'.trans (sc hct))
  have a := abs_le.1 htc
  have b := abs_le.1 hct
  exact ⟨key (t := t) hc hc1 ⟨d, hd, abs_le.2 ⟨by linarith, by linarith⟩⟩, key (t := t) hc hc1 ⟨d', hd', abs_le.2 ⟨by linarith, by linarith⟩⟩⟩

/-- The sum of coordinates in `GetCenterOfMass`. -/
theorem sum_error {n : Nat} {L U M e : ℚ} (r : Room F n L U M) (he : e ≤ M) (i : Nat) : ∀ (ps : List (List (Flt F))) (s : Flt F) (k : Nat),
    (∀ p ∈ ps, Within L U e (p.getD i 0)) → k + ps.length ≤ n →
    (∃ a t : ℚ, s.val = .num a ∧ k * (L - e) ≤ t ∧ t ≤ k * (U + e) ∧ |a - t| ≤ k * (4 * n * (1 / 2 ^ F.p) * M) ∧ |a| ≤ 4 * k * M) →
    ∃ a t : ℚ, (ps.foldl (fun s p => s + p.getD i 0) s).val = .num a ∧ ((k + ps.length : Nat) : ℚ) * (L - e) ≤ t ∧
      t ≤ ((k + ps.length : Nat) : ℚ) * (U + e) ∧ |a - t| ≤ ((k + ps.length : Nat) : ℚ) * (4 * n * (1 / 2 ^ F.p) * M) ∧
      |a| ≤ 4 * ((k + ps.length : Nat) : ℚ) * M
  | [], s, k, _, _, h => by simpa using h
  | p :: ps, s, k, hp, hk, ⟨a, t, hs, h1, h2, h3, h4⟩ => by
    have hM := r.pos
    obtain ⟨q, hq, hq1, hq2, hq3⟩ := (hp p (by simp)).abs r.lower r.upper he
    rw [List.length_cons] at hk
    have hkn : ((k : ℚ) + 1) ≤ n := by exact_mod_cast (by omega : k + 1 ≤ n)
    have hk0 : (0 : ℚ) ≤ k := by positivity
    have hab : |a + q| ≤ (4 * k + 2) * M := by
      have := abs_add_le a q
      nlinarith
    have hover : (4 * k + 2) * M ≤ 2 ^ (F.emax - 1) := by
      refine le_trans ?_ r.overflow
      nlinarith
    obtain ⟨b, hb, hb1⟩ := add_num hs hq (hab.trans hover)
    have hnu := r.nu
    have hu0 : (0 : ℚ) < 1 / 2 ^ F.p := by positivity
    have hb2 : |b - (a + q)| ≤ (4 * k + 2) * M * (1 / 2 ^ F.p) := by
      refine hb1.trans ?_
      rw [mul_one_div]
      exact div_le_div_of_nonneg_right hab (by positivity)
    have hmul : 0 < M * (1 / 2 ^ F.p) := by positivity
    have hb3 : (4 * k + 2) * M * (1 / 2 ^ F.p) ≤ 4 * n * (1 / 2 ^ F.p) * M := by
      nlinarith
    have hb4 : (4 * k + 2) * M * (1 / 2 ^ F.p) ≤ 2 * M := by
      have : 4 * n * (1 / 2 ^ F.p) * M ≤ 2 * M := by nlinarith
      linarith
    have := sum_error r he i ps (s + p.getD i 0) (k + 1) (fun p hp' => hp p (by simp [hp'])) (by omega)
      ⟨b, t + q, hb, by push_cast; linarith, by push_cast; linarith, by
        have h5 := abs_add_le (b - (a + q)) (a - t)
        rw [show b - (a + q) + (a - t) = b - (t + q) by ring] at h5
        push_cast
        linarith, by
        have h5 := abs_add_le (b - (a + q)) (a + q)
        rw [show b - (a + q) + (a + q) = b by ring] at h5
        push_cast
        linarith⟩
    rw [List.foldl_cons, List.length_cons, show k + (ps.length + 1) = k + 1 + ps.length by omega]
    exact this

/-- The centre of mass. -/
theorem within_center {n : Nat} {L U M e : ℚ} (r : Room F n L U M) (he0 : 0 ≤ e) (he : e ≤ M) {P : List (List (Flt F))} {V : List (Flt F)}
    (h : Shape n P V) (hP : ∀ p ∈ P, ∀ x ∈ p, Within L U e x) {i : Nat} {c : List (Flt F)} (hc : centerOfMass P i = .ok c) :
    ∀ x ∈ c, Within L U (e + (4 * n + 5) * (1 / 2 ^ F.p) * M) x := by
  have hM := r.pos
  have hn0 : (0 : ℚ) < n := by exact_mod_cast r.positive
  unfold centerOfMass at hc
  split at hc
  · cases hc
  next hi =>
  rw [any_headD h] at hc
  cases hc
  intro x hx
  simp only [List.mem_map, List.mem_range] at hx
  obtain ⟨j, hj, rfl⟩ := hx
  have hlen : (P.eraseIdx i).length = n := by rw [List.length_eraseIdx_of_lt (by omega), h.count]; rfl
  obtain ⟨a, t, ha, h1, h2, h3, h4⟩ := sum_error r he j (P.eraseIdx i) 0 0 (by
    intro p hp
    have hm : p ∈ P := List.mem_of_mem_eraseIdx hp
    have hd : j < p.length := by rw [h.dim p hm]; exact hj
    rw [List.getD_eq_getElem?_getD, List.getElem?_eq_getElem hd]
    exact hP p hm _ (List.getElem_mem hd)) (by omega) ⟨0, 0, val_zero, by simp, by simp, by simp, by simp⟩
  rw [Nat.zero_add, hlen] at h1 h2 h3 h4
  have hdig : n ≤ 2 ^ F.p := by
    refine le_trans ?_ r.digits
    nlinarith
  have han : |a / n| ≤ 4 * M := by
    rw [abs_div, abs_of_pos hn0, div_le_iff₀ hn0]
    linarith
  obtain ⟨q, hq, hq1⟩ := div_num ha (nat_val hdig r.dimension) hn0.ne' (han.trans (by have := r.twenty; linarith))
  have hl : F.least / 2 ^ F.p ≤ M * (1 / 2 ^ F.p) := by
    rw [mul_one_div]
    exact div_le_div_of_nonneg_right r.normal (by positivity)
  have hq2 : |q - a / n| ≤ 5 * (1 / 2 ^ F.p) * M := by
    have : |a / n| / 2 ^ F.p ≤ 4 * M * (1 / 2 ^ F.p) := by
      rw [mul_one_div]
      exact div_le_div_of_nonneg_right han (by positivity)
    linarith
  have hat : |a / n - t / n| ≤ 4 * n * (1 / 2 ^ F.p) * M := by
    rw [← sub_div, abs_div, abs_of_pos hn0, div_le_iff₀ hn0]
    linarith
  have t1 : L - e ≤ t / n := by rw [le_div_iff₀ hn0]; linarith
  have t2 : t / n ≤ U + e := by rw [div_le_iff₀ hn0]; linarith
  have q2 := abs_le.1 hq2
  have a2 := abs_le.1 hat
  exact ⟨q, hq, by linarith, by linarith⟩

/-- The excess after `k` iterations. -/
def excess (F : Format) (n : Nat) (M : ℚ) (k : Nat) : ℚ := k * ((4 * n + 16) * (1 / 2 ^ F.p) * M)

theorem within_passes {n : Nat} {L U M : ℚ} (r : Room F n L U M) {cfg : Config (Flt F)} (hl : cfg.lower.val = .num L) (hu : cfg.upper.val = .num U)
    {k : Nat} (hk : k ≤ 1000 * n) {P : List (List (Flt F))} {V : List (Flt F)} (h : Shape n P V) (hP : ∀ p ∈ P, ∀ x ∈ p, Within L U (excess F n M k) x) :
    ∃ C, Passes cfg P (fun p => ∀ x ∈ p, Within L U (excess F n M k) x) C (fun p => ∀ x ∈ p, Within L U (excess F n M (k + 1)) x) := by
  have hM := r.pos
  have hu0 : (0 : ℚ) < 1 / 2 ^ F.p := by positivity
  have hd0 : 0 < (4 * (n : ℚ) + 16) * (1 / 2 ^ F.p) * M := by positivity
  have e0 : 0 ≤ excess F n M k := by unfold excess; positivity
  have e1 : excess F n M (k + 1) = excess F n M k + (4 * n + 16) * (1 / 2 ^ F.p) * M := by unfold excess; push_cast; ring
  have hdig : (4 * (n : ℚ) + 16) * (1000 * n + 1) * (1 / 2 ^ F.p) ≤ 1 := by
    rw [mul_one_div, div_le_one (by positivity)]
    exact_mod_cast r.digits
  have e2 : excess F n M (k + 1) ≤ M := by
    have hk' : ((k + 1 : Nat) : ℚ) ≤ 1000 * n + 1 := by exact_mod_cast (by omega : k + 1 ≤ 1000 * n + 1)
    unfold excess
    calc ((k + 1 : Nat) : ℚ) * ((4 * n + 16) * (1 / 2 ^ F.p) * M) ≤ (1000 * n + 1) * ((4 * n + 16) * (1 / 2 ^ F.p) * M) :=
          mul_le_mul_of_nonneg_right hk' hd0.le
      _ = (4 * (n : ℚ) + 16) * (1000 * n + 1) * (1 / 2 ^ F.p) * M := by ring
      _ ≤ 1 * M := mul_le_mul_of_nonneg_right hdig hM.le
      _ = M := by ring
  have hMu : 0 < (1 / 2 ^ F.p) * M := by positivity
  have e3 : excess F n M k ≤ M := by linarith
  have e4 : excess F n M k + (4 * n + 5) * (1 / 2 ^ F.p) * M ≤ M := by nlinarith
  have e5 : excess F n M k ≤ excess F n M k + (4 * n + 5) * (1 / 2 ^ F.p) * M := by
    have : 0 < (4 * (n : ℚ) + 5) * (1 / 2 ^ F.p) * M := by positivity
    linarith
  refine ⟨fun p => ∀ x ∈ p, Within L U (excess F n M k + (4 * n + 5) * (1 / 2 ^ F.p) * M) x, hP,
    fun i c hc => within_center r e0 e3 h hP hc, ?_, ?_, ?_, ?_, ?_⟩
  · intro c t hc ht x hx
    refine (within_project r.ordered hl hu ?_ x hx).mono e0
    exact within_zip (fun a b ha hb => (finite_step r e4 ha hb val_one (by norm_num)).2) hc (fun y hy => (ht y hy).mono e5)
  · intro c t hc ht x hx
    refine (within_project r.ordered hl hu ?_ x hx).mono e0
    exact within_zip (fun a b ha hb => (finite_step r e4 ha hb two_val (by norm_num)).1) hc (fun y hy => (ht y hy).mono e5)
  · intro c t hc ht x hx
    refine Within.mono (within_zip (f := fun c t => c + 1 / 2 * (t - c)) (A := Within L U (excess F n M k + (4 * n + 5) * (1 / 2 ^ F.p) * M))
      (fun a b ha hb => within_half r e4 ha hb) hc (fun y hy => (ht y hy).mono e5) x hx) ?_
    nlinarith
  · intro b t hb ht x hx
    refine Within.mono (within_zip (f := fun b x => b + 1 / 2 * (x - b)) (A := Within L U (excess F n M k))
      (fun a b ha hb => within_half r e3 ha hb) hb ht x hx) ?_
    have : 0 < (n : ℚ) := by exact_mod_cast r.positive
    nlinarith
  · intro p hp x hx
    exact (hp x hx).mono (by linarith)

/-- **C114 (bounds).** In double: if the vertices of the initial simplex lie within the bounds `L ≤ U` (at most `M` in absolute value, `M` normal and so far
below the overflow threshold that sums of `4n + 16` such numbers are finite), then every coordinate of every point at which the function is evaluated, and
of the point returned, is finite and leaves the bounds by at most `(4n + 16)·M·2^-p` per iteration carried out. -/
theorem C114_bounds (sqrt : Flt F → Flt F) (g : List (Flt F) → Flt F) (cfg : Config (Flt F)) (initial : List (Flt F)) (hne : initial ≠ [])
    {L U M : ℚ} (hl : cfg.lower.val = .num L) (hu : cfg.upper.val = .num U) (hLU : L ≤ U) (hL : |L| ≤ M) (hU : |U| ≤ M) (hM : F.least ≤ M)
    (hover : (4 * initial.length + 16) * M ≤ 2 ^ (F.emax - 1)) (hdim : (initial.length : ℚ) ≤ 2 ^ (F.emax - 1))
    (hdig : (4 * initial.length + 16) * (1000 * initial.length + 1) ≤ 2 ^ F.p)
    (hin : ∀ p ∈ regularSimplex sqrt initial cfg.l, ∀ x ∈ p, cfg.lower ≤ x ∧ x ≤ cfg.upper)
    (previous : List (List (List (Flt F)))) (hp : PrevOk initial.length previous) (fuel : Nat) (hf : 1000 * initial.length + 1 ≤ fuel) :
    ∃ Fin p, (search sqrt cfg fuel previous initial).eval g = .ok Fin ∧ (find sqrt cfg fuel previous initial).eval g = .ok (p, Fin.previous) ∧
      Fin.iterations ≤ 1000 * initial.length + 1 ∧
      ∀ q, q = p ∨ q ∈ (find sqrt cfg fuel previous initial).trace g → ∀ x ∈ q, ∃ v, x.val = .num v ∧
        L - Fin.iterations * (4 * initial.length + 16) * M / 2 ^ F.p ≤ v ∧ v ≤ U + Fin.iterations * (4 * initial.length + 16) * M / 2 ^ F.p := by
  have r : Room F initial.length L U M := ⟨hL, hU, hLU, hM, hover, hdim, List.length_pos_iff.2 hne, hdig⟩
  obtain ⟨Fin, p, e1, e2, -, -, -, -, h5, -, -, hD⟩ := any_find sqrt g cfg initial hne previous hp fuel hf
  obtain ⟨d1, d2⟩ := hD (fun k p => ∀ x ∈ p, Within L U (excess F initial.length M k) x) (by
      intro q hq x hx
      obtain ⟨b1, b2⟩ := hin q hq x hx
      rw [Flt.le_iff, hl] at b1
      rw [Flt.le_iff, hu] at b2
      unfold Within excess
      generalize x.val = y at b1 b2
      rcases y with _ | s | v
      · rcases Dbl.le_cases b1 with ⟨h, -⟩ | ⟨h, -⟩ | ⟨a, b, h, h', -⟩
        · cases h
        · cases h
        · cases h'
      · rcases Dbl.le_cases b1 with ⟨h, -⟩ | ⟨h, -⟩ | ⟨a, b, h, h', -⟩
        · cases h
        · rcases Dbl.le_cases b2 with ⟨h2, -⟩ | ⟨h2, -⟩ | ⟨a, b, h2, h', -⟩
          · rw [h2] at h; cases h
          · cases h2
          · cases h2
        · cases h'
      · exact ⟨v, rfl, by simpa using Dbl.num_le.1 b1, by simpa using Dbl.num_le.1 b2⟩)
    (by
      intro k q hq x hx
      refine (hq x hx).mono ?_
      unfold excess
      have : 0 ≤ (4 * (initial.length : ℚ) + 16) * (1 / 2 ^ F.p) * M := by have := r.pos; positivity
      push_cast
      linarith)
    (fun k Q W hk hs hQ => within_passes r hl hu hk hs hQ)
  refine ⟨Fin, p, e1, e2, h5, ?_⟩
  have e : ∀ k : ℚ, k * (4 * initial.length + 16) * M / 2 ^ F.p = k * ((4 * initial.length + 16) * (1 / 2 ^ F.p) * M) := by intro k; ring
  rintro q (rfl | hq) x hx
  · rw [e]
    exact d1 x hx
  · rw [e]
    exact d2 q hq x hx

/-! ## Points that are out of bounds -/

/-- The projection: every coordinate is NaN or within the bounds. -/
theorem project_nan {R : Type} [Add R] [Sub R] [Mul R] [Div R] [Neg R] [Zero R] [One R] [NatCast R] [LT R] [LE R] [DecidableLT R] [DecidableLE R]
    [IeeeOrder R] (cfg : Config R) (hb : cfg.lower ≤ cfg.upper) (p : List R) :
    ∀ x ∈ project cfg p, nan x ∨ cfg.lower ≤ x ∧ x ≤ cfg.upper := by
  obtain ⟨n1, n2, n3⟩ := IeeeOrder.le_iff.1 hb
  intro x hx
  simp only [project, List.mem_map] at hx
  obtain ⟨y, -, rfl⟩ := hx
  split
  · exact Or.inr ⟨hb, IeeeOrder.le_iff.2 ⟨n2, n2, IeeeOrder.lt_irrefl _⟩⟩
  · next h1 =>
    split
    · exact Or.inr ⟨IeeeOrder.le_iff.2 ⟨n1, n1, IeeeOrder.lt_irrefl _⟩, hb⟩
    · next h2 =>
      by_cases hn : nan y
      · exact Or.inl hn
      · exact Or.inr ⟨IeeeOrder.le_iff.2 ⟨n1, hn, h2⟩, IeeeOrder.le_iff.2 ⟨hn, n2, h1⟩⟩

/-- **C114 (projection).** Whatever the polygon – out of bounds, with infinite coordinates, with NaN – every coordinate of the first point evaluated in an
iteration (the reflected one) is NaN or within the bounds. -/
theorem C114_projected {R : Type} [Add R] [Sub R] [Mul R] [Div R] [Neg R] [Zero R] [One R] [NatCast R] [LT R] [LE R] [DecidableLT R] [DecidableLE R]
    [IeeeOrder R] (g : List R → R) (cfg : Config R) (hb : cfg.lower ≤ cfg.upper) {n : Nat} {P : List (List R)} {V : List R} (h : Shape n P V) :
    ∃ q, ((body cfg P V).trace g)[0]? = some q ∧ q.length = n ∧ ∀ x ∈ q, nan x ∨ cfg.lower ≤ x ∧ x ≤ cfg.upper := by
  obtain ⟨P', V', st⟩ := any_body g cfg h
  obtain ⟨q, hq⟩ := st.first
  exact ⟨_, hq, st.dims _ (List.mem_of_getElem? hq), project_nan cfg hb q⟩

open IeeeGradient

/-- Distance of coordinate `i` from 1/4. -/
def quarter (i : Nat) (v : List (Flt binary64)) : Flt binary64 := abs64 (v.getD i 0 - f64 (1 / 4))

/-- The returned point, checked. -/
def returns {α β : Type} (r : Res (α × β)) (test : α → Bool) : Bool :=
  match r with
  | .ok (p, _) => test p
  | _ => false

theorem returns_iff {α β : Type} {r : Res (α × β)} {test : α → Bool} : returns r test = true ↔ ∃ p s, r = .ok (p, s) ∧ test p = true := by
  rcases r with ⟨p, s⟩ | w | _
  · constructor
    · intro h; exact ⟨p, s, rfl, h⟩
    · rintro ⟨p', s', e, h⟩; cases e; exact h
  · constructor
    · intro h; cases h
    · rintro ⟨p', s', e, h⟩; cases e
  · constructor
    · intro h; cases h
    · rintro ⟨p', s', e, h⟩; cases e

/-- Side 1, precision 1, bounds ±472250000000000000000. -/
def wide : Config (Flt binary64) := ⟨f64 1, f64 1, f64 (-472250000000000000000), f64 472250000000000000000⟩

/-- **C114 (out of bounds).** In `double` the bounds are not kept: from a start whose simplex lies within the bounds (its first coordinate is the upper bound
at every vertex), the centre of five vertices is rounded above the bound, and the contracted point is evaluated and returned. -/
theorem C114_leaves : (∀ p ∈ regularSimplex sqrt64 [wide.upper, 0, 0, 0, 0] wide.l, ∀ x ∈ p, wide.lower ≤ x ∧ x ≤ wide.upper) ∧
    ∃ p prev, (find sqrt64 wide 5001 [] [wide.upper, 0, 0, 0, 0]).eval (quarter 4) = .ok (p, prev) ∧ wide.upper < p.headD 0 ∧
      (p.headD 0).Finite := by
  refine ⟨by decide +kernel, ?_⟩
  obtain ⟨p, s, e, h⟩ := (returns_iff (r := (find sqrt64 wide 5001 [] [wide.upper, 0, 0, 0, 0]).eval (quarter 4))
    (test := fun p => decide (wide.upper < p.headD 0) && decide (p.headD 0).Finite)).1 (by decide +kernel)
  simp only [Bool.and_eq_true, decide_eq_true_eq] at h
  exact ⟨p, s, e, h.1, h.2⟩

/-- Side 1, precision 1, bounds ±10^308. -/
def huge : Config (Flt binary64) := ⟨f64 1, f64 1, f64 (-(10 ^ 308)), f64 (10 ^ 308)⟩

/-- **C114 (overflow).** With bounds near the largest double the sum over the vertices overflows: from a start within the bounds (with its whole simplex) a
point with a NaN coordinate is evaluated and returned. -/
theorem C114_overflow : (∀ p ∈ regularSimplex sqrt64 [huge.upper, 0] huge.l, ∀ x ∈ p, huge.lower ≤ x ∧ x ≤ huge.upper) ∧
    ∃ p prev, (find sqrt64 huge 2001 [] [huge.upper, 0]).eval (quarter 1) = .ok (p, prev) ∧ nan (p.headD 0) := by
  refine ⟨by decide +kernel, ?_⟩
  obtain ⟨p, s, e, h⟩ := (returns_iff (r := (find sqrt64 huge 2001 [] [huge.upper, 0]).eval (quarter 1))
    (test := fun p => decide ((p.headD 0).val = .nan))).1 (by decide +kernel)
  have h' : (p.headD 0).val = .nan := of_decide_eq_true h
  exact ⟨p, s, e, h'⟩

/-- Non-vacuity of `C114_bounds`: the square [-5, 5]² with side 1, from (1, 2), in `double`, with any function. -/
example (g : List (Flt binary64) → Flt binary64) : ∃ Fin p,
    (search sqrt64 ⟨f64 1, f64 (1 / 1000), f64 (-5), f64 5⟩ 2001 [] [f64 1, f64 2]).eval g = .ok Fin ∧
    (find sqrt64 ⟨f64 1, f64 (1 / 1000), f64 (-5), f64 5⟩ 2001 [] [f64 1, f64 2]).eval g = .ok (p, Fin.previous) ∧ Fin.iterations ≤ 2001 ∧
    ∀ q, q = p ∨ q ∈ (find sqrt64 ⟨f64 1, f64 (1 / 1000), f64 (-5), f64 5⟩ 2001 [] [f64 1, f64 2]).trace g → ∀ x ∈ q, ∃ v, x.val = .num v ∧
      -5 - Fin.iterations * 24 * 5 / 2 ^ 53 ≤ v ∧ v ≤ 5 + Fin.iterations * 24 * 5 / 2 ^ 53 := by
  have := C114_bounds (F := binary64) sqrt64 g ⟨f64 1, f64 (1 / 1000), f64 (-5), f64 5⟩ [f64 1, f64 2] (by simp) (L := -5) (U := 5) (M := 5)
    (by decide +kernel) (by decide +kernel) (by norm_num) (by norm_num) (by norm_num) (by decide +kernel)
    (by decide +kernel) (by decide +kernel) (by decide +kernel) (by decide +kernel) [] ⟨by simp, by simp⟩ 2001 (by simp)
  norm_num [binary64] at this ⊢
  exact this

/-- Non-vacuity of `C114_projected`: a polygon with an infinite and a NaN coordinate. -/
example (g : List (Flt binary64) → Flt binary64) : ∃ q,
    ((body ⟨f64 1, f64 1, f64 (-2), f64 2⟩ [[rnd (.inf false), f64 1], [nanF, f64 7], [f64 0, f64 1]] [f64 1, f64 2, f64 3]).trace g)[0]? = some q ∧
    q.length = 2 ∧ ∀ x ∈ q, nan x ∨ f64 (-2) ≤ x ∧ x ≤ f64 2 :=
  C114_projected g ⟨f64 1, f64 1, f64 (-2), f64 2⟩ (by decide +kernel) ⟨by norm_num, rfl, by simp, rfl⟩

/-- The projection of infinite and NaN coordinates. -/
example : project ⟨f64 1, f64 1, f64 (-2), f64 2⟩ [rnd (.inf false), nanF, rnd (.inf true), f64 1] = [f64 2, nanF, f64 (-2), f64 1] := by decide +kernel

end Bounds

end K52.NelderMead
