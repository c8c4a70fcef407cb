import Verif.Model.NelderMead
import Verif.Lemmas.Continuous
import Verif.Props.NanSelect

/-! # C89: Nelder-Mead on functions that may be NaN -/

set_option linter.unusedSectionVars false

namespace K52.NelderMead
open IeeeOrder

variable {R : Type} [Add R] [Sub R] [Mul R] [Div R] [Neg R] [Zero R] [One R] [NatCast R] [LT R] [LE R] [DecidableLT R] [DecidableLE R]
  [IeeeOrder R] [IeeeArith R]

/-! ### The termination criterion -/

theorem foldl_nan_stays (h : R → R → R) (hh : ∀ s v, nan s → nan (h s v)) : ∀ (vs : List R) (s : R), nan s → nan (vs.foldl h s)
  | [], _, hs => hs
  | v :: vs, s, hs => foldl_nan_stays h hh vs _ (hh s v hs)

theorem foldl_nan (h : R → R → R) (h1 : ∀ s v, nan s → nan (h s v)) (h2 : ∀ s v, nan v → nan (h s v)) : ∀ (vs : List R) (s : R),
    (∃ v ∈ vs, nan v) → nan (vs.foldl h s)
  | [], _, hv => by simp at hv
  | v :: vs, s, hv => by
    simp only [List.mem_cons, exists_eq_or_imp] at hv
    rcases hv with hv | hv
    · exact foldl_nan_stays h h1 vs _ (h2 s v hv)
    · exact foldl_nan h h1 h2 vs _ hv

/-- The spread of values with a NaN among them is NaN. -/
theorem difference_nan (sqrt : R → R) (hsqrt : ∀ x : R, nan x → nan (sqrt x)) (values : List R) (h : ∃ v ∈ values, nan v) :
    nan (difference sqrt values) := by
  unfold difference
  have ha : nan (values.foldl (· + ·) 0 / (values.length : R)) :=
    IeeeArith.div_left _ (foldl_nan _ (fun s v hs => IeeeArith.add_left v hs) (fun s v hv => IeeeArith.add_right s hv) values 0 h)
  refine hsqrt _ (IeeeArith.div_left _ ?_)
  refine foldl_nan _ (fun s v hs => IeeeArith.add_left _ hs) (fun s v hv => ?_) values 0 h
  exact IeeeArith.add_right _ (IeeeArith.mul_left _ (IeeeArith.sub_left _ hv))

/-- **C89 (termination).** When a recorded value is NaN, the search is not continued. -/
theorem C89_not_continued (sqrt : R → R) (hsqrt : ∀ x : R, nan x → nan (sqrt x)) (cfg : Config R) (r : Nat) (values : List R)
    (polygon : List (List R)) (previous : List (List (List R))) (h : ∃ v ∈ values, nan v) (t : Bool × List (List (List R)))
    (ht : goOn sqrt cfg r values polygon previous = .ok t) : t.1 = false := by
  unfold goOn at ht
  split at ht
  · cases ht; rfl
  · obtain ⟨s, _, ht⟩ := Res.bind_eq_ok.1 ht
    split at ht
    · cases ht; rfl
    · cases ht
      exact decide_eq_false (not_lt_nan_right (difference_nan sqrt hsqrt values h))

/-! ### One iteration -/

/-- What an iteration can do: replace the vertex `first` (one new value), or shrink the polygon (possibly after replacing). -/
theorem body_cases (g : List R → R) (cfg : Config R) (P : List (List R)) (V : List R) (P' : List (List R)) (V' : List R)
    (h : (body cfg P V).eval g = .ok (P', V')) :
    ∃ idx, getIndexes V = .ok idx ∧
      ((∃ p, P' = P.set idx.first p ∧ V' = V.set idx.first (g p)) ∨
       (∃ c p, ¬ nan c ∧ c < g p ∧ (c = idx.firstV ∧ V' = V ∧ reduction P idx.min = .ok P' ∨
          ∃ q, c = g q ∧ V' = V.set idx.first c ∧ reduction (P.set idx.first q) idx.min = .ok P'))) := by
  simp only [body, Prog.eval_bind, Prog.eval_lift] at h
  obtain ⟨idx, hi, h⟩ := Res.bind_eq_ok.1 h
  obtain ⟨center, _, h⟩ := Res.bind_eq_ok.1 h
  refine ⟨idx, hi, ?_⟩
  split at h
  · simp at h
  · next worst hw =>
    simp only [Prog.eval_bind, Prog.eval_askMin, Res.ok_bind] at h
    split at h
    · simp only [Prog.eval_bind, Prog.eval_askMin, Res.ok_bind] at h
      split at h
      · simp only [Prog.pure_def, Prog.eval_done, Res.ok.injEq, Prod.mk.injEq] at h
        exact Or.inl ⟨_, h.1.symm, h.2.symm⟩
      · simp only [Prog.pure_def, Prog.eval_done, Res.ok.injEq, Prod.mk.injEq] at h
        exact Or.inl ⟨_, h.1.symm, h.2.symm⟩
    · split at h
      · simp only [Prog.pure_def, Prog.eval_done, Res.ok.injEq, Prod.mk.injEq] at h
        exact Or.inl ⟨_, h.1.symm, h.2.symm⟩
      · by_cases hb : g (project cfg (reflexion center worst)) < idx.firstV
        · simp only [hb, decide_true, if_true, Prog.eval_bind, Prog.eval_askMin, Res.ok_bind] at h
          split at h
          · next hc =>
            simp only [Prog.eval_bind, Prog.eval_lift] at h
            obtain ⟨P2, hP2, h⟩ := Res.bind_eq_ok.1 h
            simp only [Prog.pure_def, Prog.eval_done, Res.ok.injEq, Prod.mk.injEq] at h
            obtain ⟨rfl, h2⟩ := h
            exact Or.inr ⟨_, _, (lt_num hc).1, hc, Or.inr ⟨_, rfl, h2.symm, hP2⟩⟩
          · simp only [Prog.pure_def, Prog.eval_done, Res.ok.injEq, Prod.mk.injEq, List.set_set] at h
            exact Or.inl ⟨_, h.1.symm, h.2.symm⟩
        · simp only [hb, decide_false, Bool.false_eq_true, if_false, Prog.eval_bind, Prog.eval_askMin, Res.ok_bind] at h
          split at h
          · next hc =>
            simp only [Prog.eval_bind, Prog.eval_lift] at h
            obtain ⟨P2, hP2, h⟩ := Res.bind_eq_ok.1 h
            simp only [Prog.pure_def, Prog.eval_done, Res.ok.injEq, Prod.mk.injEq] at h
            obtain ⟨rfl, h2⟩ := h
            exact Or.inr ⟨_, _, (lt_num hc).1, hc, Or.inl ⟨rfl, h2.symm, hP2⟩⟩
          · simp only [Prog.pure_def, Prog.eval_done, Res.ok.injEq, Prod.mk.injEq] at h
            exact Or.inl ⟨_, h.1.symm, h.2.symm⟩

/-- **C89 (where NaN enters).** If all recorded values are numbers, an iteration can record a NaN only for a contracted point: the middle
between the replaced vertex (or its reflection) and the centre of the other vertices.  A reflected or expanded point with value NaN is
never taken. -/
theorem C89_enters (g : List R → R) (cfg : Config R) (P : List (List R)) (V : List R) (P' : List (List R)) (V' : List R)
    (h : (body cfg P V).eval g = .ok (P', V')) (hV : ∀ v ∈ V, ¬ nan v) (k : Nat) (x : R) (hx : V'[k]? = some x) (hn : nan x) :
    ∃ center worst p, centerOfMass P k = .ok center ∧ P[k]? = some worst ∧ P' = P.set k p ∧ V' = V.set k (g p) ∧
      (p = contraction center worst ∨ p = contraction center (project cfg (reflexion center worst))) := by
  have hset : ∀ (i : Nat) (v : R), (V.set i v)[k]? = some x → k = i ∧ x = v := by
    intro i v hx
    by_cases hik : i = k
    · subst hik
      rw [List.getElem?_set_self'] at hx
      cases hv : V[i]? <;> rw [hv] at hx <;> simp_all
    · rw [List.getElem?_set_ne hik] at hx
      exact absurd hn (hV x (List.mem_of_getElem? hx))
  simp only [body, Prog.eval_bind, Prog.eval_lift] at h
  obtain ⟨idx, hi, h⟩ := Res.bind_eq_ok.1 h
  obtain ⟨center, hc, h⟩ := Res.bind_eq_ok.1 h
  split at h
  · simp at h
  · next worst hw =>
    simp only [Prog.eval_bind, Prog.eval_askMin, Res.ok_bind] at h
    split at h
    · next h1 =>
      simp only [Prog.eval_bind, Prog.eval_askMin, Res.ok_bind] at h
      split at h
      · next h2 =>
        simp only [Prog.pure_def, Prog.eval_done, Res.ok.injEq, Prod.mk.injEq] at h
        rw [← h.2] at hx
        exact absurd ((hset _ _ hx).2 ▸ hn) (lt_num h2).1
      · simp only [Prog.pure_def, Prog.eval_done, Res.ok.injEq, Prod.mk.injEq] at h
        rw [← h.2] at hx
        exact absurd ((hset _ _ hx).2 ▸ hn) (lt_num h1).1
    · split at h
      · next h2 =>
        simp only [Prog.pure_def, Prog.eval_done, Res.ok.injEq, Prod.mk.injEq] at h
        rw [← h.2] at hx
        exact absurd ((hset _ _ hx).2 ▸ hn) (le_iff.1 h2).1
      · by_cases hb : g (project cfg (reflexion center worst)) < idx.firstV
        · simp only [hb, decide_true, if_true, Prog.eval_bind, Prog.eval_askMin, Res.ok_bind] at h
          split at h
          · simp only [Prog.eval_bind, Prog.eval_lift] at h
            obtain ⟨P2, hP2, h⟩ := Res.bind_eq_ok.1 h
            simp only [Prog.pure_def, Prog.eval_done, Res.ok.injEq, Prod.mk.injEq] at h
            rw [← h.2] at hx
            exact absurd ((hset _ _ hx).2 ▸ hn) (lt_num hb).1
          · simp only [Prog.pure_def, Prog.eval_done, Res.ok.injEq, Prod.mk.injEq, List.set_set] at h
            rw [← h.2] at hx
            obtain ⟨rfl, _⟩ := hset _ _ hx
            exact ⟨center, worst, _, hc, hw, h.1.symm, h.2.symm, Or.inr rfl⟩
        · simp only [hb, decide_false, Bool.false_eq_true, if_false, Prog.eval_bind, Prog.eval_askMin, Res.ok_bind] at h
          split at h
          · simp only [Prog.eval_bind, Prog.eval_lift] at h
            obtain ⟨P2, hP2, h⟩ := Res.bind_eq_ok.1 h
            simp only [Prog.pure_def, Prog.eval_done, Res.ok.injEq, Prod.mk.injEq] at h
            rw [← h.2] at hx
            exact absurd hn (hV x (List.mem_of_getElem? hx))
          · simp only [Prog.pure_def, Prog.eval_done, Res.ok.injEq, Prod.mk.injEq] at h
            rw [← h.2] at hx
            obtain ⟨rfl, _⟩ := hset _ _ hx
            exact ⟨center, worst, _, hc, hw, h.1.symm, h.2.symm, Or.inl rfl⟩

/-- With a NaN at vertex 0: it is the "best" vertex and not the "worst" one. -/
theorem getIndexes_nan_zero {v0 : R} (hv : nan v0) (v1 : R) (vs : List R) :
    ∃ idx, getIndexes (v0 :: v1 :: vs) = .ok idx ∧ idx.min = 0 ∧ idx.first ≠ 0 := by
  have key : ∀ (vs : List R) (i : Nat) (s : Idx R), i ≠ 0 → s.min = 0 → nan s.minV → s.first ≠ 0 →
      (indexLoop i vs s).min = 0 ∧ (indexLoop i vs s).first ≠ 0 := by
    intro vs
    induction vs with
    | nil => intro i s _ h1 _ h3; exact ⟨h1, h3⟩
    | cons v vs ih =>
      intro i s hi h1 h2 h3
      simp only [indexLoop, not_lt_nan_right h2, if_false]
      apply ih (i + 1)
      · omega
      · split
        · exact h1
        · split <;> exact h1
      · split
        · exact h2
        · split <;> exact h2
      · split
        · exact hi
        · split <;> exact h3
  refine ⟨_, rfl, ?_⟩
  rw [if_neg (not_lt_nan_right hv)]
  exact key vs 2 _ (by omega) rfl hv (show (1 : Nat) ≠ 0 by omega)

/-- With a NaN at vertex 1: it is the "worst" vertex. -/
theorem getIndexes_nan_one {v1 : R} (hv : nan v1) (v0 : R) (vs : List R) :
    ∃ idx, getIndexes (v0 :: v1 :: vs) = .ok idx ∧ idx.first = 1 ∧ idx.firstV = v1 := by
  have key : ∀ (vs : List R) (i : Nat) (s : Idx R), s.first = 1 → s.firstV = v1 →
      (indexLoop i vs s).first = 1 ∧ (indexLoop i vs s).firstV = v1 := by
    intro vs
    induction vs with
    | nil => intro i s h1 h2; exact ⟨h1, h2⟩
    | cons v vs ih =>
      intro i s h1 h2
      have hn : ¬ v > s.firstV := by rw [h2]; exact not_lt_nan_left hv
      simp only [indexLoop, hn, if_false]
      apply ih
      · split <;> split <;> exact h1
      · split <;> split <;> exact h2
  refine ⟨_, rfl, ?_⟩
  rw [if_neg (not_lt_nan_left hv)]
  exact key vs 2 _ rfl rfl

/-- The "worst" vertex is a number, or it is vertex 1. -/
theorem getIndexes_first {V : List R} {idx : Idx R} (h : getIndexes V = .ok idx) :
    V[idx.first]? = some idx.firstV ∧ (idx.first = 1 ∨ ¬ nan idx.firstV) := by
  match V, h with
  | [], h => cases h
  | [_], h => cases h
  | v0 :: v1 :: vs, h =>
    simp only [getIndexes, Res.ok.injEq] at h
    have key : ∀ (vs done : List R) (s : Idx R), done[s.first]? = some s.firstV → (s.first = 1 ∨ ¬ nan s.firstV) →
        (done ++ vs)[(indexLoop done.length vs s).first]? = some (indexLoop done.length vs s).firstV ∧
        ((indexLoop done.length vs s).first = 1 ∨ ¬ nan (indexLoop done.length vs s).firstV) := by
      intro vs
      induction vs with
      | nil => intro done s h1 h2; simpa [indexLoop] using ⟨h1, h2⟩
      | cons v vs ih =>
        intro done s h1 h2
        have hlen : (done ++ [v]).length = done.length + 1 := by simp
        have happ : done ++ v :: vs = (done ++ [v]) ++ vs := by simp
        rw [happ]
        simp only [indexLoop, ← hlen]
        have hlt := (List.getElem?_eq_some_iff.1 h1).1
        have hold : (done ++ [v])[s.first]? = some s.firstV := by rw [List.getElem?_append_left hlt]; exact h1
        apply ih
        · by_cases c : v > s.firstV
          · simp only [c, if_true]
            split <;> simp
          · simp only [c, if_false]
            split <;> split <;> exact hold
        · by_cases c : v > s.firstV
          · simp only [c, if_true]
            right
            split <;> exact (lt_num c).2
          · simp only [c, if_false]
            split <;> split <;> exact h2
    have := key vs [v0, v1] (if v0 > v1 then ⟨0, v0, 1, v1, 1, v1⟩ else ⟨1, v1, 0, v0, 0, v0⟩)
      (by split <;> rfl) (by
        split
        · next c => exact Or.inr (lt_num c).2
        · exact Or.inl rfl)
    simp only [List.length_cons, List.length_nil, Nat.zero_add, Nat.reduceAdd, List.cons_append, List.nil_append] at this
    rw [h] at this
    exact this

/-! ### The search -/

theorem ieee_countAll_eval (g : List R → R) : ∀ P : List (List R), (countAll P).eval g = .ok (P.map g)
  | [] => rfl
  | p :: P => by simp [countAll, Prog.eval_bind, ieee_countAll_eval g P]

/-- One round of the loop, when it returns. -/
theorem loop_step (g : List R → R) (sqrt : R → R) (cfg : Config R) (fuel r : Nat) (P : List (List R)) (V : List R)
    (previous : List (List (List R))) (F : Final R) (h : (loop sqrt cfg (fuel + 1) r P V previous).eval g = .ok F) :
    ∃ P' V' t, (body cfg P V).eval g = .ok (P', V') ∧ goOn sqrt cfg (r + 1) V' P' previous = .ok t ∧
      (t.1 = true ∧ (loop sqrt cfg fuel (r + 1) P' V' t.2).eval g = .ok F ∨ t.1 = false ∧ F = ⟨P', V', t.2, r + 1⟩) := by
  simp only [loop, Prog.eval_bind, Prog.eval_lift] at h
  obtain ⟨s, hs, h⟩ := Res.bind_eq_ok.1 h
  obtain ⟨t, ht, h⟩ := Res.bind_eq_ok.1 h
  refine ⟨s.1, s.2, t, hs, ht, ?_⟩
  cases hb : t.1 with
  | true => simp only [hb, if_true] at h; exact Or.inl ⟨rfl, h⟩
  | false =>
    simp only [hb, Bool.false_eq_true, if_false, Prog.pure_def, Prog.eval_done, Res.ok.injEq] at h
    exact Or.inr ⟨rfl, h.symm⟩

/-- **C89 (NaN in the first simplex).** If the function is NaN at a vertex of the initial simplex other than vertex 1, the search ends
after its first iteration. -/
theorem C89_one_iteration (sqrt : R → R) (hsqrt : ∀ x : R, nan x → nan (sqrt x)) (cfg : Config R) (fuel : Nat)
    (previous : List (List (List R))) (initial : List R) (g : List R → R) (k : Nat) (hk : k ≠ 1) (p : List R)
    (hp : (regularSimplex sqrt initial cfg.l)[k]? = some p) (hn : nan (g p)) (F : Final R)
    (h : (search sqrt cfg fuel previous initial).eval g = .ok F) : F.iterations = 1 := by
  simp only [search, Prog.eval_bind, ieee_countAll_eval, Res.ok_bind] at h
  cases fuel with
  | zero => simp [loop] at h
  | succ fuel =>
    obtain ⟨P', V', t, hb, ht, h⟩ := loop_step g sqrt cfg fuel 0 _ _ previous F h
    rcases h with ⟨h1, _⟩ | ⟨_, rfl⟩
    · obtain ⟨idx, hi, hc⟩ := body_cases g cfg _ _ P' V' hb
      have hv : ((regularSimplex sqrt initial cfg.l).map g)[k]? = some (g p) := by rw [List.getElem?_map, hp]; rfl
      obtain ⟨f1, f2⟩ := getIndexes_first hi
      have hne : idx.first ≠ k := by
        rintro rfl
        rcases f2 with f2 | f2
        · exact hk f2
        · rw [f1] at hv; exact f2 (Option.some.inj hv ▸ hn)
      have hV : V'[k]? = some (g p) := by
        rcases hc with ⟨q, _, rfl⟩ | ⟨c, q, _, _, ⟨_, rfl, _⟩ | ⟨q', _, rfl, _⟩⟩
        · rw [List.getElem?_set_ne hne]; exact hv
        · exact hv
        · rw [List.getElem?_set_ne hne]; exact hv
      have := C89_not_continued sqrt hsqrt cfg _ V' P' previous ⟨g p, List.mem_of_getElem? hV, hn⟩ t ht
      rw [this] at h1
      cases h1
    · rfl

/-- **C89 (NaN at the start).** Started at a point where the function is NaN, `FindOptimalParameters` returns that point (after a
single iteration). -/
theorem C89_nan_start (sqrt : R → R) (hsqrt : ∀ x : R, nan x → nan (sqrt x)) (cfg : Config R) (fuel : Nat)
    (previous : List (List (List R))) (initial : List R) (g : List R → R) (hn : nan (g initial)) (r : List R × List (List (List R)))
    (h : (find sqrt cfg fuel previous initial).eval g = .ok r) : r.1 = initial := by
  simp only [find, Prog.eval_bind, Prog.eval_lift] at h
  obtain ⟨F, hF, h⟩ := Res.bind_eq_ok.1 h
  obtain ⟨q, hq, h⟩ := Res.bind_eq_ok.1 h
  simp only [Prog.pure_def, Prog.eval_done, Res.ok.injEq] at h
  subst h
  have hit := C89_one_iteration sqrt hsqrt cfg fuel previous initial g 0 (by decide) initial rfl hn F hF
  simp only [search, Prog.eval_bind, ieee_countAll_eval, Res.ok_bind] at hF
  cases fuel with
  | zero => simp [loop] at hF
  | succ fuel =>
    obtain ⟨P', V', t, hb, ht, h⟩ := loop_step g sqrt cfg fuel 0 _ _ previous F hF
    obtain ⟨idx, hi, hc⟩ := body_cases g cfg _ _ P' V' hb
    have hidx : idx.min = 0 ∧ idx.first ≠ 0 := by
      rw [regularSimplex, List.map_cons] at hi
      cases hr : List.map g (List.map (fun i => List.mapIdx (fun j x => if j = i then
          x + cfg.l * (sqrt ((initial.length : R) + 1) + (initial.length : R) - 1) / ((initial.length : R) * sqrt 2)
          else x + cfg.l * (sqrt ((initial.length : R) + 1) - 1) / ((initial.length : R) * sqrt 2)) initial) (List.range initial.length)) with
      | nil => rw [hr] at hi; cases hi
      | cons v1 vs =>
        rw [hr] at hi
        obtain ⟨idx', e, e1, e2⟩ := getIndexes_nan_zero hn v1 vs
        rw [e] at hi
        cases hi
        exact ⟨e1, e2⟩
    have hP0 : (regularSimplex sqrt initial cfg.l)[0]? = some initial := rfl
    have hV0 : ((regularSimplex sqrt initial cfg.l).map g)[0]? = some (g initial) := rfl
    have hred : ∀ (Q : List (List R)), Q[0]? = some initial → reduction Q idx.min = .ok P' → P'[0]? = some initial := by
      intro Q hQ hr
      unfold reduction at hr
      rw [hidx.1] at hr
      rw [hQ] at hr
      simp only [Res.ok.injEq] at hr
      subst hr
      rw [List.getElem?_mapIdx, hQ]
      simp
    have hend : P'[0]? = some initial ∧ V'[0]? = some (g initial) := by
      rcases hc with ⟨q, rfl, rfl⟩ | ⟨c, q, _, _, ⟨_, rfl, hr⟩ | ⟨q', _, rfl, hr⟩⟩
      · rw [List.getElem?_set_ne hidx.2, List.getElem?_set_ne hidx.2]; exact ⟨hP0, hV0⟩
      · exact ⟨hred _ hP0 hr, hV0⟩
      · refine ⟨hred _ ?_ hr, ?_⟩
        · rw [List.getElem?_set_ne hidx.2]; exact hP0
        · rw [List.getElem?_set_ne hidx.2]; exact hV0
    rcases h with ⟨h1, _⟩ | ⟨_, rfl⟩
    · have := C89_not_continued sqrt hsqrt cfg _ V' P' previous ⟨_, List.mem_of_getElem? hend.2, hn⟩ t ht
      rw [this] at h1
      cases h1
    · unfold result at hq
      simp only at hq
      cases V' with
      | nil => cases hq
      | cons v vs =>
        have hv : v = g initial := by simpa using hend.2
        simp only [hv, Grid.C87_max_element, Processor.selectLoop_max_nan hn, hend.1, Res.ok.injEq] at hq
        exact hq.symm

/-- **C89 (NaN later).** A search of more than one iteration ends with at most one recorded NaN: every iteration but the last worked
on numbers only. -/
theorem C89_at_most_one (sqrt : R → R) (hsqrt : ∀ x : R, nan x → nan (sqrt x)) (cfg : Config R) (fuel : Nat)
    (previous : List (List (List R))) (initial : List R) (g : List R → R) (F : Final R)
    (h : (search sqrt cfg fuel previous initial).eval g = .ok F) (hi : 2 ≤ F.iterations) (i j : Nat) (x y : R)
    (hx : F.values[i]? = some x) (hy : F.values[j]? = some y) (nx : nan x) (ny : nan y) : i = j := by
  have key : ∀ (fuel r : Nat) (P : List (List R)) (V : List R) (previous : List (List (List R))),
      (∀ v ∈ V, ¬ nan v) → (loop sqrt cfg fuel r P V previous).eval g = .ok F → i = j := by
    intro fuel
    induction fuel with
    | zero => intro r P V previous _ h; simp [loop] at h
    | succ fuel ih =>
      intro r P V previous hV h
      obtain ⟨P', V', t, hb, ht, h⟩ := loop_step g sqrt cfg fuel r P V previous F h
      rcases h with ⟨h1, h⟩ | ⟨_, rfl⟩
      · refine ih _ _ _ _ (fun v hv hn => ?_) h
        have := C89_not_continued sqrt hsqrt cfg _ V' P' previous ⟨v, hv, hn⟩ t ht
        rw [this] at h1
        cases h1
      · obtain ⟨idx, _, hc⟩ := body_cases g cfg P V P' V' hb
        have hset : ∃ x, V' = V.set idx.first x ∨ V' = V := by
          rcases hc with ⟨q, _, e⟩ | ⟨c, q, _, _, ⟨_, e, _⟩ | ⟨q', _, e, _⟩⟩
          · exact ⟨_, Or.inl e⟩
          · exact ⟨c, Or.inr e⟩
          · exact ⟨_, Or.inl e⟩
        have hat : ∀ (k : Nat) (z : R), V'[k]? = some z → nan z → k = idx.first := by
          intro k z hk hz
          by_contra hne
          obtain ⟨w, e | e⟩ := hset
          · rw [e, List.getElem?_set_ne (Ne.symm hne)] at hk
            exact hV z (List.mem_of_getElem? hk) hz
          · rw [e] at hk
            exact hV z (List.mem_of_getElem? hk) hz
        exact (hat i x hx nx).trans (hat j y hy ny).symm
  simp only [search, Prog.eval_bind, ieee_countAll_eval, Res.ok_bind] at h
  cases fuel with
  | zero => simp [loop] at h
  | succ fuel =>
    obtain ⟨P', V', t, hb, ht, h⟩ := loop_step g sqrt cfg fuel 0 _ _ previous F h
    rcases h with ⟨h1, h⟩ | ⟨_, rfl⟩
    · refine key _ _ _ _ _ (fun v hv hn => ?_) h
      have := C89_not_continued sqrt hsqrt cfg _ V' P' previous ⟨v, hv, hn⟩ t ht
      rw [this] at h1
      cases h1
    · simp at hi

/-- **C89 (NaN at vertex 1).** A single NaN at vertex 1 of the simplex counts as the worst vertex: the iteration replaces it and leaves
all other vertices and values alone. -/
theorem C89_vertex_one (cfg : Config R) (g : List R → R) (P : List (List R)) (V : List R) (v : R) (hv : V[1]? = some v) (hn : nan v)
    (P' : List (List R)) (V' : List R) (h : (body cfg P V).eval g = .ok (P', V')) :
    ∃ p, P' = P.set 1 p ∧ V' = V.set 1 (g p) ∨
      ∃ q, (¬ nan (g q)) ∧ V' = V.set 1 (g q) ∧ ∃ k, reduction (P.set 1 q) k = .ok P' := by
  obtain ⟨idx, hi, hc⟩ := body_cases g cfg P V P' V' h
  have hfirst : idx.first = 1 ∧ idx.firstV = v := by
    match V, hv, hi with
    | v0 :: v1 :: vs, hv, hi =>
      have e : v1 = v := by simpa using hv
      subst e
      obtain ⟨idx', e, e1⟩ := getIndexes_nan_one hn v0 vs
      rw [e] at hi
      cases hi
      exact e1
  rw [hfirst.1] at hc
  rcases hc with ⟨p, h1, h2⟩ | ⟨c, p, hcn, _, ⟨e, _, _⟩ | ⟨q, e, h1, h2⟩⟩
  · exact ⟨p, Or.inl ⟨h1, h2⟩⟩
  · rw [e, hfirst.2] at hcn
    exact absurd hn hcn
  · exact ⟨[], Or.inr ⟨q, e ▸ hcn, e ▸ h1, idx.min, h2⟩⟩

/-- **C89 (the result).** Vertex 0 if its recorded value is NaN; otherwise a vertex whose recorded value is a number and not smaller than
any other recorded value. -/
theorem C89_result (F : Final R) (p : List R) (h : result F = .ok p) :
    (∃ v, F.values[0]? = some v ∧ nan v ∧ F.polygon[0]? = some p) ∨
    (∃ (k : Nat) (v : R), F.values[k]? = some v ∧ (¬ nan v) ∧ F.polygon[k]? = some p ∧ ∀ w ∈ F.values, ¬ v < w) := by
  unfold result at h
  cases hV : F.values with
  | nil => rw [hV] at h; cases h
  | cons v vs =>
    rw [hV] at h
    simp only at h
    split at h
    · next q hq =>
      cases h
      rw [Grid.C87_max_element] at hq
      by_cases hn : nan v
      · left
        rw [Processor.selectLoop_max_nan hn] at hq
        exact ⟨v, rfl, hn, hq⟩
      · right
        have key : ∀ (vs done : List R) (k : Nat) (v : R), done[k]? = some v → (¬ nan v) → (∀ w ∈ done, ¬ v < w) →
            ∃ u, (done ++ vs)[Processor.selectLoop true k v done.length vs]? = some u ∧ (¬ nan u) ∧ ∀ w ∈ done ++ vs, ¬ u < w := by
          intro vs
          induction vs with
          | nil => intro done k v h1 h2 h3; exact ⟨v, by simpa [Processor.selectLoop] using h1, h2, by simpa using h3⟩
          | cons w vs ih =>
            intro done k v h1 h2 h3
            rw [show done ++ w :: vs = (done ++ [w]) ++ vs by simp]
            simp only [Processor.selectLoop, gt_iff_lt, if_true, decide_eq_true_eq]
            rw [show done.length + 1 = (done ++ [w]).length by simp]
            have hlt := (List.getElem?_eq_some_iff.1 h1).1
            by_cases c : v < w
            · rw [if_pos c]
              refine ih (done ++ [w]) done.length w (by simp) (lt_num c).2 (fun u hu => ?_)
              rcases List.mem_append.1 hu with hu | hu
              · intro hwu
                exact h3 u hu (IeeeOrder.lt_trans c hwu)
              · rw [List.mem_singleton.1 hu]; exact IeeeOrder.lt_irrefl _
            · rw [if_neg c]
              refine ih (done ++ [w]) k v (by rw [List.getElem?_append_left hlt]; exact h1) h2 (fun u hu => ?_)
              rcases List.mem_append.1 hu with hu | hu
              · exact h3 u hu
              · rw [List.mem_singleton.1 hu]; exact c
        obtain ⟨u, u1, u2, u3⟩ := key vs [v] 0 v rfl hn (by simpa using IeeeOrder.lt_irrefl v)
        exact ⟨_, u, u1, u2, hq, u3⟩
    · cases h

/-! ### Examples -/

/-- Non-vacuity of `C89_nan_start` and `C89_one_iteration`: a function that is NaN at the start `0`, a number at the other vertex. -/
example : ((find (R := Dbl) (fun x => x) ⟨.num 1, .num (1 / 100), .num (-10), .num 10⟩ 5 [] [.num 0]).eval
    (fun v => if v.headD 0 ≤ .num 0 then .nan else v.headD 0)) =
      .ok ([.num 0], [[[.num 0], [.num (1 / 2)]]]) := by decide +kernel

/-- Non-vacuity of `C89_at_most_one`: a search of two iterations that ends with a NaN at one vertex. -/
example : ((search (R := Dbl) (fun x => x) ⟨.num 4, .num (1 / 100), .num (-10), .num 10⟩ 5 [] [.num 0]).eval
    (fun v => if v.headD 0 = .num 1 then .nan else if v.headD 0 < .num 0 then .num 100 else v.headD 0)).bind
      (fun F => .ok (F.iterations, F.values)) = .ok (2, [.num 0, .nan]) := by decide +kernel

/-- Non-vacuity of `C89_vertex_one`: the NaN at vertex 1 is replaced by the contracted point 1/2. -/
example : (body (R := Dbl) ⟨.num 1, .num (1 / 100), .num (-10), .num 10⟩ [[.num 0], [.num 1]] [.num 0, .nan]).eval
    (fun v => if v.headD 0 < .num 0 then .num 100 else v.headD 0) = .ok ([[.num 0], [.num (1 / 2)]], [.num 0, .num (1 / 2)]) := by
  decide +kernel

/-- Non-vacuity of `C89_enters`: the reflected point -2 is bad, the contracted point 1 has value NaN and is recorded. -/
example : (body (R := Dbl) ⟨.num 4, .num (1 / 100), .num (-10), .num 10⟩ [[.num 0], [.num 2]] [.num 0, .num 2]).eval
    (fun v => if v.headD 0 = .num 1 then .nan else if v.headD 0 < .num 0 then .num 100 else v.headD 0) =
      .ok ([[.num 0], [.num 1]], [.num 0, .nan]) := by decide +kernel

end K52.NelderMead
