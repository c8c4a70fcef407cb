import Verif.Props.IeeeConjugate
import Verif.Props.NanHooke

/-!
# C113: Hooke-Jeeves in IEEE arithmetic, with overflow, underflow and NaN
-/

namespace K52.HookeJeeves

open Flt IeeeGradient

variable {F : Format}

/-- The library functions in floating point: `std::sqrt`, and `AreEqual` for vectors (floating_point.cpp:8-37) with `std::abs` and `Constants::Eps`. -/
def ieeeLib (sqrt abs : Flt F → Flt F) (eps : Flt F) : Lib (Flt F) :=
  ⟨sqrt, fun v w => decide (v.length = w.length) && (List.zipWith (fun x y => decide (abs (x - y) < eps)) v w).all id⟩

/-- What is assumed of the library. -/
structure Good (sqrt abs : Flt F → Flt F) (eps : Flt F) : Prop where
  abs_zero : abs 0 = 0
  abs_nan : abs nanF = nanF
  abs_inf : ∀ x s, x.val = .inf s → (abs x).val = .inf false
  sqrt_zero : sqrt 0 = 0
  eps_pos : 0 < eps
  eps_finite : eps.Finite

/-! ## The order of machine numbers is well founded -/

/-- The number of a machine number in their order. -/
def rank (a : Flt F) : Nat :=
  match a.val with
  | .nan => 0
  | .inf true => 0
  | .num q => (⌊q / 2 ^ F.emin⌋ + ⌈(2 : ℚ) ^ F.emax / 2 ^ F.emin⌉ + 1).toNat
  | .inf false => (2 * ⌈(2 : ℚ) ^ F.emax / 2 ^ F.emin⌉ + 1).toNat + 1

theorem rank_lt {a b : Flt F} (h : a < b) : rank a < rank b := by
  have hu := zpow_pos Nearest.two_pos F.emin
  have grid : ∀ {c : Flt F} {q : ℚ}, c.val = .num q → ∃ M : Int, q / 2 ^ F.emin = M ∧ |M| ≤ ⌈(2 : ℚ) ^ F.emax / 2 ^ F.emin⌉ := by
    intro c q hc
    obtain ⟨r1, r2⟩ := Finite.repr hc
    obtain ⟨N, k, -, hk, e⟩ := F.fl_form q
    rw [r1] at e
    obtain ⟨d, hd⟩ := Int.eq_ofNat_of_zero_le (sub_nonneg.2 hk)
    have hM : q / 2 ^ F.emin = ((N * 2 ^ d : Int) : ℚ) := by
      rw [e, div_eq_iff hu.ne']
      have : (2 : ℚ) ^ k = 2 ^ d * 2 ^ F.emin := by
        rw [← zpow_natCast, ← zpow_add₀ (by norm_num)]
        congr 1
        omega
      rw [this]
      push_cast
      ring
    refine ⟨N * 2 ^ d, hM, ?_⟩
    have : |((N * 2 ^ d : Int) : ℚ)| ≤ ⌈(2 : ℚ) ^ F.emax / 2 ^ F.emin⌉ := by
      rw [← hM, abs_div, abs_of_pos hu]
      refine le_trans ?_ (Int.le_ceil _)
      exact div_le_div_of_nonneg_right r2.le hu.le
    exact_mod_cast this
  have hC : 0 < ⌈(2 : ℚ) ^ F.emax / 2 ^ F.emin⌉ := Int.ceil_pos.2 (div_pos (zpow_pos Nearest.two_pos _) hu)
  rw [lt_iff, Dbl.lt_def] at h
  unfold rank
  rcases ea : a.val with _ | s | q <;> rcases eb : b.val with _ | t | r <;> rw [ea, eb] at h
  · cases h
  · cases h
  · cases h
  · cases h
  · cases s <;> cases t <;> simp [Dbl.ltb] at h ⊢
  · cases s
    · cases h
    · obtain ⟨M, e, hM⟩ := grid eb
      simp only [e, Int.floor_intCast]
      have := (abs_le.1 hM).1
      omega
  · cases h
  · cases t
    · obtain ⟨M, e, hM⟩ := grid ea
      simp only [e, Int.floor_intCast]
      have := (abs_le.1 hM).2
      omega
    · cases h
  · obtain ⟨M, e, hM⟩ := grid ea
    obtain ⟨N, e', hN⟩ := grid eb
    simp only [e, e', Int.floor_intCast]
    have hlt : q < r := by simpa [Dbl.ltb] using h
    have : (M : ℚ) < N := by
      rw [← e, ← e']
      exact div_lt_div_of_pos_right hlt hu
    have : M < N := by exact_mod_cast this
    have := (abs_le.1 hM).1
    omega

/-! ## Coordinates that are not finite -/

theorem keep_add {x₀ : Flt F} (h : ¬ Finite x₀) (s : Flt F) : x₀ + s = x₀ ∨ x₀ + s = nanF := by
  by_cases hs : Finite s
  · left; exact (shift_not_finite h hs).1
  · rcases not_finite_cases h with rfl | ⟨a, ha⟩
    · simp
    rcases not_finite_cases hs with rfl | ⟨b, hb⟩
    · simp
    by_cases hab : a = b
    · left
      refine ext ?_
      rw [val_add, ha, hb]
      show F.round (if a = b then .inf a else .nan) = .inf a
      rw [if_pos hab]
      rfl
    · right
      refine ext ?_
      rw [val_add, ha, hb]
      show F.round (if a = b then .inf a else .nan) = .nan
      rw [if_neg hab]
      rfl

theorem sub_eq_add_neg' (a b : Flt F) : a - b = a + -b := by
  refine ext ?_
  rw [val_sub, val_add, neg_val]
  rfl

theorem keep_sub {x₀ : Flt F} (h : ¬ Finite x₀) (s : Flt F) : x₀ - s = x₀ ∨ x₀ - s = nanF := by
  rw [sub_eq_add_neg']
  exact keep_add h _

/-- A coordinate that is not finite stays as it is or becomes NaN in a coordinatewise search. -/
theorem coordLoop_keep (g : List (Flt F) → Flt F) (steps : List (Flt F)) {x₀ : Flt F} (hx : ¬ Finite x₀) (j : Nat) :
    ∀ (n i : Nat) (new r : List (Flt F)), (coordLoop steps n i new).eval g = .ok r → (∃ x, new[j]? = some x ∧ (x = x₀ ∨ x = nanF)) →
      ∃ x, r[j]? = some x ∧ (x = x₀ ∨ x = nanF)
  | 0, i, new, r, h, hj => by
    cases h
    exact hj
  | n + 1, i, new, r, h, hj => by
    have key : ∀ y, (∀ x, new[i]? = some x → (x = x₀ ∨ x = nanF) → (y = x₀ ∨ y = nanF)) → ∃ x, (new.set i y)[j]? = some x ∧ (x = x₀ ∨ x = nanF) := by
      intro y hy
      obtain ⟨x, hx1, hx2⟩ := hj
      by_cases hij : i = j
      · subst hij
        have hi : i < new.length := (List.getElem?_eq_some_iff.1 hx1).1
        exact ⟨y, by simp [hi], hy x hx1 hx2⟩
      · exact ⟨x, by rw [List.getElem?_set_ne hij]; exact hx1, hx2⟩
    unfold coordLoop at h
    split at h
    · next x s e1 e2 =>
      simp only [Prog.eval_bind, Prog.eval_askMin, Res.ok_bind] at h
      split at h
      · refine coordLoop_keep g steps hx j n (i + 1) _ r h (key _ fun x' hx' hP => ?_)
        rw [e1] at hx'
        cases hx'
        rcases hP with rfl | rfl
        · exact keep_add hx s
        · right; exact nanF_add s
      · simp only [Prog.eval_bind, Prog.eval_askMin, Res.ok_bind] at h
        split at h
        · refine coordLoop_keep g steps hx j n (i + 1) _ r h (key _ fun x' hx' hP => ?_)
          rw [e1] at hx'
          cases hx'
          rcases hP with rfl | rfl
          · exact keep_sub hx s
          · right; exact nanF_sub s
        · exact coordLoop_keep g steps hx j n (i + 1) _ r h hj
    · cases h

/-- The function is NaN at points with a NaN coordinate. -/
def Propagates (g : List (Flt F) → Flt F) : Prop := ∀ v : List (Flt F), nanF ∈ v → nan (g v)

variable {g : List (Flt F) → Flt F} {cfg : Config (Flt F)}

theorem pattern_nan {args after : List (Flt F)} {j : Nat} {a b : Flt F} (ha : args[j]? = some a) (hb : after[j]? = some b) (hn : b - a = nanF) :
    (patternMove cfg args after)[j]? = some nanF := by
  unfold patternMove
  rw [List.getElem?_zipWith, ha, hb]
  simp [hn]

/-- With a NaN coordinate in the pattern move, the pattern search ends at the iteration limit, at a point with NaN there. -/
theorem inner_nan (hg : Propagates g) (steps : List (Flt F)) (j : Nat) : ∀ (n it : Nat) (args after : List (Flt F)),
    after.length = args.length → steps.length = args.length → it + n + 1 = cfg.maxIterations →
    (∃ a b, args[j]? = some a ∧ after[j]? = some b ∧ b - a = nanF) →
    ∃ v : List (Flt F), v[j]? = some nanF ∧ v.length = args.length ∧ ∀ fuel ≥ n + 1, (inner cfg steps fuel args after it).eval g = .ok (.returns v)
  | n, it, args, after, hl, hs, hit, ⟨a, b, ha, hb, hn⟩ => by
    have hm : (patternMove cfg args after).length = args.length := by simp [patternMove, hl]
    have hp := pattern_nan (cfg := cfg) ha hb hn
    obtain ⟨r, q1, q2, -⟩ := ieee_coordinatewise g (patternMove cfg args after) steps (by rw [hm]; exact hs)
    obtain ⟨x, hx1, hx2⟩ := coordLoop_keep g steps not_finite_nan j _ _ _ _ q1 ⟨_, hp, Or.inl rfl⟩
    have hx : r[j]? = some nanF := by rw [hx1, hx2.elim id id]
    have hgr : ¬ g after ≤ g r := by
      rw [eq_nanF (hg r (List.mem_of_getElem? hx))]
      exact not_le_nanF _
    cases n with
    | zero =>
      refine ⟨r, hx, q2.trans hm, fun fuel hf => ?_⟩
      obtain ⟨fuel, rfl⟩ : ∃ m, fuel = m + 1 := ⟨fuel - 1, by omega⟩
      simp only [inner, Prog.eval_bind, q1, Res.ok_bind, Prog.eval_askMin, if_neg hgr]
      rw [if_pos (by omega)]
      rfl
    | succ n =>
      obtain ⟨v, h1, h2, h3⟩ := inner_nan hg steps j n (it + 1) after r (by rw [q2, hm, hl]) (hs.trans hl.symm) (by omega)
        ⟨b, nanF, hb, hx, nanF_sub _⟩
      refine ⟨v, h1, h2.trans hl, fun fuel hf => ?_⟩
      obtain ⟨fuel, rfl⟩ : ∃ m, fuel = m + 1 := ⟨fuel - 1, by omega⟩
      simp only [inner, Prog.eval_bind, q1, Res.ok_bind, Prog.eval_askMin, if_neg hgr]
      rw [if_neg (by omega)]
      exact h3 fuel (by omega)

/-- ... or never, without a limit. -/
theorem inner_nan_forever (hg : Propagates g) (steps : List (Flt F)) (j : Nat) : ∀ (fuel it : Nat) (args after : List (Flt F)),
    after.length = args.length → steps.length = args.length → cfg.maxIterations ≤ it →
    (∃ a b, args[j]? = some a ∧ after[j]? = some b ∧ b - a = nanF) →
    (inner cfg steps fuel args after it).eval g = .throw "(out of fuel)"
  | 0, _, _, _, _, _, _, _ => rfl
  | fuel + 1, it, args, after, hl, hs, hit, ⟨a, b, ha, hb, hn⟩ => by
    have hm : (patternMove cfg args after).length = args.length := by simp [patternMove, hl]
    have hp := pattern_nan (cfg := cfg) ha hb hn
    obtain ⟨r, q1, q2, -⟩ := ieee_coordinatewise g (patternMove cfg args after) steps (by rw [hm]; exact hs)
    obtain ⟨x, hx1, hx2⟩ := coordLoop_keep g steps not_finite_nan j _ _ _ _ q1 ⟨_, hp, Or.inl rfl⟩
    have hx : r[j]? = some nanF := by rw [hx1, hx2.elim id id]
    have hgr : ¬ g after ≤ g r := by
      rw [eq_nanF (hg r (List.mem_of_getElem? hx))]
      exact not_le_nanF _
    simp only [inner, Prog.eval_bind, q1, Res.ok_bind, Prog.eval_askMin, if_neg hgr]
    rw [if_neg (by omega)]
    exact inner_nan_forever hg steps j fuel (it + 1) after r (by rw [q2, hm, hl]) (hs.trans hl.symm) (by omega) ⟨b, nanF, hb, hx, nanF_sub _⟩

variable {sqrt abs : Flt F → Flt F} {eps : Flt F}

theorem abs_not_small (hl : Good sqrt abs eps) {x : Flt F} (hx : ¬ Finite x) : ¬ abs x < eps := by
  rcases not_finite_cases hx with rfl | ⟨s, hs⟩
  · rw [hl.abs_nan]; exact not_nanF_lt _
  · obtain ⟨q, hq⟩ := hl.eps_finite
    rw [lt_iff, hl.abs_inf x s hs, hq, Dbl.lt_def]
    exact Bool.false_ne_true

theorem not_areEqual (hl : Good sqrt abs eps) {v w : List (Flt F)} {j : Nat} {a b : Flt F} (ha : v[j]? = some a) (hb : w[j]? = some b)
    (hn : ¬ Flt.Finite (a - b)) : (ieeeLib sqrt abs eps).areEqual v w = false := by
  show (decide (v.length = w.length) && (List.zipWith (fun x y => decide (abs (x - y) < eps)) v w).all id) = false
  rw [Bool.and_eq_false_iff]
  right
  rw [List.all_eq_false]
  refine ⟨decide (abs (a - b) < eps), ?_, ?_⟩
  · refine List.mem_of_getElem? (i := j) ?_
    rw [List.getElem?_zipWith, ha, hb]
  · simpa using abs_not_small hl hn

theorem areEqual_self (hl : Good sqrt abs eps) : ∀ {v : List (Flt F)}, (∀ x ∈ v, Finite x) → (ieeeLib sqrt abs eps).areEqual v v = true := by
  intro v hv
  show (decide (v.length = v.length) && (List.zipWith (fun x y => decide (abs (x - y) < eps)) v v).all id) = true
  rw [decide_eq_true rfl, Bool.true_and]
  induction v with
  | nil => rfl
  | cons x xs ih =>
    rw [List.zipWith_cons_cons, List.all_cons, ih fun y hy => hv y (List.mem_cons_of_mem _ hy), Bool.and_true]
    rw [Flt.sub_self (hv x List.mem_cons_self), hl.abs_zero]
    exact decide_eq_true hl.eps_pos

/-- From a point with a coordinate that is not finite. -/
theorem outer_not_finite (hl : Good sqrt abs eps) (hg : Propagates g) (steps : List (Flt F)) (args : List (Flt F)) (it : Nat)
    (hs : steps.length = args.length) {j : Nat} {x : Flt F} (hx : args[j]? = some x) (hxf : ¬ Finite x) :
    (∀ n, it + n + 1 = cfg.maxIterations → ∃ v : List (Flt F), v[j]? = some nanF ∧ v.length = args.length ∧
      ∀ fuel ≥ n + 2, (outer (ieeeLib sqrt abs eps) cfg fuel args steps it).eval g = .ok v) ∧
    (cfg.maxIterations ≤ it → ∀ fuel, (outer (ieeeLib sqrt abs eps) cfg fuel args steps it).eval g = .throw "(out of fuel)") := by
  obtain ⟨after, q1, q2, -⟩ := ieee_coordinatewise g args steps hs
  obtain ⟨b, hb1, hb2⟩ := coordLoop_keep g steps hxf j _ _ _ _ q1 ⟨_, hx, Or.inl rfl⟩
  have hne : (ieeeLib sqrt abs eps).areEqual args after = false := by
    refine not_areEqual hl hx hb1 ?_
    rcases hb2 with rfl | rfl
    · rw [sub_self_nan hxf]; exact not_finite_nan
    · rw [sub_nanF]; exact not_finite_nan
  have hn : b - x = nanF := by
    rcases hb2 with rfl | rfl
    · exact sub_self_nan hxf
    · exact nanF_sub _
  constructor
  · intro n hit
    obtain ⟨v, h1, h2, h3⟩ := inner_nan (cfg := cfg) hg steps j n it args after q2 hs hit ⟨x, b, hx, hb1, hn⟩
    refine ⟨v, h1, h2, fun fuel hf => ?_⟩
    obtain ⟨fuel, rfl⟩ : ∃ m, fuel = m + 1 := ⟨fuel - 1, by omega⟩
    simp only [outer, Prog.eval_bind, q1, Res.ok_bind, hne, h3 fuel (by omega), Bool.false_eq_true, if_false]
    rfl
  · intro hit fuel
    cases fuel with
    | zero => rfl
    | succ fuel =>
      have := inner_nan_forever (cfg := cfg) hg steps j fuel it args after q2 hs hit ⟨x, b, hx, hb1, hn⟩
      simp only [outer, Prog.eval_bind, q1, Res.ok_bind, hne, this, Bool.false_eq_true, if_false]
      rfl

/-- **C113 (infinite or undefined coordinates).** Started at a point with a coordinate that is infinite or NaN, on a function that is NaN where an argument
is, the search returns a point with NaN at that coordinate, after exactly as many pattern moves as the limit says; with limit 0 it never returns. -/
theorem C113_not_finite (hl : Good sqrt abs eps) (hg : Propagates g) (initial : List (Flt F)) {j : Nat} {x : Flt F}
    (hx : initial[j]? = some x) (hxf : ¬ Finite x) :
    (1 ≤ cfg.maxIterations → ∃ v : List (Flt F), v[j]? = some nanF ∧ v.length = initial.length ∧
      ∀ fuel ≥ cfg.maxIterations + 1, (find (ieeeLib sqrt abs eps) cfg fuel initial).eval g = .ok v) ∧
    (cfg.maxIterations = 0 → ∀ fuel, (find (ieeeLib sqrt abs eps) cfg fuel initial).eval g = .throw "(out of fuel)") := by
  obtain ⟨h1, h2⟩ := outer_not_finite (cfg := cfg) hl hg (List.replicate initial.length cfg.initStep) initial 0 (by simp) hx hxf
  constructor
  · intro h
    obtain ⟨v, k1, k2, k3⟩ := h1 (cfg.maxIterations - 1) (by omega)
    exact ⟨v, k1, k2, fun fuel hf => k3 fuel (by omega)⟩
  · intro h
    exact h2 (by omega)

/-! ## Termination -/

/-- The pattern search ends, at the latest at the limit. -/
theorem inner_limit (steps : List (Flt F)) : ∀ (n it : Nat) (args after : List (Flt F)),
    after.length = args.length → steps.length = args.length → it + n + 1 = cfg.maxIterations →
    ∃ o, (∀ fuel ≥ n + 1, (inner cfg steps fuel args after it).eval g = .ok o) ∧
      ∀ a b i, o = .breaks a b i → b = a ∧ a.length = args.length ∧ it ≤ i ∧ i < cfg.maxIterations ∧ (i = it → a = after)
  | n, it, args, after, hl, hs, hit => by
    have hm : (patternMove cfg args after).length = args.length := by simp [patternMove, hl]
    obtain ⟨r, q1, q2, -⟩ := ieee_coordinatewise g (patternMove cfg args after) steps (by rw [hm]; exact hs)
    by_cases c : g after ≤ g r
    · refine ⟨.breaks after after it, fun fuel hf => ?_, ?_⟩
      · obtain ⟨fuel, rfl⟩ : ∃ m, fuel = m + 1 := ⟨fuel - 1, by omega⟩
        simp only [inner, Prog.eval_bind, q1, Res.ok_bind, Prog.eval_askMin, if_pos c]
        rfl
      · intro a b i e
        cases e
        exact ⟨rfl, hl, le_rfl, by omega, fun _ => rfl⟩
    · cases n with
      | zero =>
        refine ⟨.returns r, fun fuel hf => ?_, fun a b i e => by cases e⟩
        obtain ⟨fuel, rfl⟩ : ∃ m, fuel = m + 1 := ⟨fuel - 1, by omega⟩
        simp only [inner, Prog.eval_bind, q1, Res.ok_bind, Prog.eval_askMin, if_neg c]
        rw [if_pos (by omega)]
        rfl
      | succ n =>
        obtain ⟨o, h1, h2⟩ := inner_limit steps n (it + 1) after r (by rw [q2, hm, hl]) (hs.trans hl.symm) (by omega)
        refine ⟨o, fun fuel hf => ?_, fun a b i e => ?_⟩
        · obtain ⟨fuel, rfl⟩ : ∃ m, fuel = m + 1 := ⟨fuel - 1, by omega⟩
          simp only [inner, Prog.eval_bind, q1, Res.ok_bind, Prog.eval_askMin, if_neg c]
          rw [if_neg (by omega)]
          exact h1 fuel (by omega)
        · obtain ⟨e1, e2, e3, e4, e5⟩ := h2 a b i e
          exact ⟨e1, e2.trans hl, by omega, e4, fun h => by omega⟩

theorem outer_terminates' (hl : Good sqrt abs eps) (hg : Propagates g) : ∀ (k it : Nat) (steps args : List (Flt F)), it < cfg.maxIterations →
    steps.length = args.length → exitCriteria (ieeeLib sqrt abs eps) cfg (divided cfg steps (k + 1)) = true →
    ∃ r : List (Flt F), ∃ m, ∀ fuel ≥ m, (outer (ieeeLib sqrt abs eps) cfg fuel args steps it).eval g = .ok r
  | k, it, steps, args, hit, hs, hk => by
    by_cases hfin : ∀ x ∈ args, Finite x
    swap
    · push_neg at hfin
      obtain ⟨x, hx, hxf⟩ := hfin
      obtain ⟨j, hj⟩ := List.getElem?_of_mem hx
      obtain ⟨v, -, -, h⟩ := (outer_not_finite (cfg := cfg) hl hg steps args it hs hj hxf).1 (cfg.maxIterations - it - 1) (by omega)
      exact ⟨v, _, h⟩
    obtain ⟨after, q1, q2, q3⟩ := ieee_coordinatewise g args steps hs
    by_cases c : (ieeeLib sqrt abs eps).areEqual args after = true
    · by_cases d : exitCriteria (ieeeLib sqrt abs eps) cfg (steps.map (· / cfg.stepDivider)) = true
      · refine ⟨after, 1, fun fuel hf => ?_⟩
        obtain ⟨fuel, rfl⟩ : ∃ m, fuel = m + 1 := ⟨fuel - 1, by omega⟩
        simp only [outer, Prog.eval_bind, q1, Res.ok_bind, if_pos c, if_pos d]
        rfl
      · cases k with
        | zero => exact absurd hk d
        | succ k =>
          obtain ⟨r, m, h⟩ := outer_terminates' hl hg k it (steps.map (· / cfg.stepDivider)) args hit (by simpa using hs) hk
          refine ⟨r, m + 1, fun fuel hf => ?_⟩
          obtain ⟨fuel, rfl⟩ : ∃ m, fuel = m + 1 := ⟨fuel - 1, by omega⟩
          simp only [outer, Prog.eval_bind, q1, Res.ok_bind, if_pos c, if_neg d]
          exact h fuel (by omega)
    · have hlt : g after < g args := by
        rcases q3 with rfl | q3
        · exact absurd (areEqual_self hl hfin) c
        · exact q3
      obtain ⟨o, h1, h2⟩ := inner_limit (g := g) (cfg := cfg) steps (cfg.maxIterations - it - 1) it args after q2 hs (by omega)
      cases o with
      | returns v =>
        refine ⟨v, cfg.maxIterations - it - 1 + 2, fun fuel hf => ?_⟩
        obtain ⟨fuel, rfl⟩ : ∃ m, fuel = m + 1 := ⟨fuel - 1, by omega⟩
        simp only [outer, Prog.eval_bind, q1, Res.ok_bind, if_neg c, h1 fuel (by omega)]
        rfl
      | breaks a b i =>
        obtain ⟨rfl, e2, e3, e4, e5⟩ := h2 a b i rfl
        by_cases d : exitCriteria (ieeeLib sqrt abs eps) cfg steps = true
        · refine ⟨b, cfg.maxIterations - it - 1 + 2, fun fuel hf => ?_⟩
          obtain ⟨fuel, rfl⟩ : ∃ m, fuel = m + 1 := ⟨fuel - 1, by omega⟩
          simp only [outer, Prog.eval_bind, q1, Res.ok_bind, if_neg c, h1 fuel (by omega), if_pos d]
          rfl
        · have : ∃ r : List (Flt F), ∃ m, ∀ fuel ≥ m, (outer (ieeeLib sqrt abs eps) cfg fuel b steps i).eval g = .ok r := by
            by_cases hi : i = it
            · have e := e5 hi
              have hr : rank (g b) < rank (g args) := by rw [e]; exact rank_lt hlt
              exact outer_terminates' hl hg k i steps b e4 (by rw [hs, e2]) hk
            · exact outer_terminates' hl hg k i steps b e4 (by rw [hs, e2]) hk
          obtain ⟨r, m, h⟩ := this
          refine ⟨r, max m (cfg.maxIterations - it - 1 + 1) + 1, fun fuel hf => ?_⟩
          obtain ⟨fuel, rfl⟩ : ∃ m, fuel = m + 1 := ⟨fuel - 1, by omega⟩
          simp only [outer, Prog.eval_bind, q1, Res.ok_bind, if_neg c, h1 fuel (by omega), if_neg d]
          exact h fuel (by omega)
termination_by k it _ args => (k, cfg.maxIterations - it, rank (g args))
decreasing_by
  all_goals simp_wf
  · exact Prod.Lex.left _ _ (by omega)
  · subst hi
    exact Prod.Lex.right _ (Prod.Lex.right _ hr)
  · exact Prod.Lex.right _ (Prod.Lex.left _ _ (by omega))

/-! ## The steps become small -/

/-- Machine numbers above 1 are at least `1 + 2^(1-p)`. -/
theorem above_one {δ : ℚ} (h : F.fl δ = δ) (h1 : 1 < δ) : 1 + 2 * (1 / 2 ^ F.p) ≤ δ := by
  obtain ⟨N, k, hN, -, e⟩ := F.fl_form δ
  rw [h] at e
  have hk0 := zpow_pos Nearest.two_pos k
  have hN' : (N : ℚ) ≤ 2 ^ F.p := by exact_mod_cast (abs_le.1 hN).2
  have hk : 1 - (F.p : Int) ≤ k := by
    by_contra hc
    have hc : k ≤ -(F.p : Int) := by omega
    have h2 : (2 : ℚ) ^ k ≤ 2 ^ (-(F.p : Int)) := zpow_le_zpow_right₀ (by norm_num) hc
    have h3 : (N : ℚ) * 2 ^ k ≤ 2 ^ F.p * 2 ^ (-(F.p : Int)) := by
      refine mul_le_mul hN' h2 hk0.le (by positivity)
    rw [zpow_neg, zpow_natCast, mul_inv_cancel₀ (by positivity)] at h3
    linarith
  have hu : 2 * (1 / 2 ^ F.p) = (2 : ℚ) ^ (1 - (F.p : Int)) := by
    rw [zpow_sub₀ (by norm_num), zpow_one, zpow_natCast]
    ring
  rw [hu]
  rcases le_or_gt k 0 with hk1 | hk1
  · obtain ⟨m, hm⟩ := Int.eq_ofNat_of_zero_le (neg_nonneg.2 hk1)
    have hone : (1 : ℚ) = ((2 ^ m : Int) : ℚ) * 2 ^ k := by
      push_cast
      rw [← zpow_natCast, ← zpow_add₀ (by norm_num), ← hm]
      simp
    have hlt : ((2 ^ m : Int) : ℚ) < N := by
      rw [e] at h1
      nth_rewrite 1 [hone] at h1
      exact lt_of_mul_lt_mul_right h1 hk0.le
    have hle : (2 ^ m : Int) + 1 ≤ N := by
      have : (2 ^ m : Int) < N := by exact_mod_cast hlt
      omega
    have hle : ((2 ^ m : Int) : ℚ) + 1 ≤ N := by exact_mod_cast hle
    have h2 : (2 : ℚ) ^ (1 - (F.p : Int)) ≤ 2 ^ k := zpow_le_zpow_right₀ (by norm_num) hk
    have h3 := mul_le_mul_of_nonneg_right hle hk0.le
    rw [e]
    calc (1 : ℚ) + 2 ^ (1 - (F.p : Int)) ≤ ((2 ^ m : Int) : ℚ) * 2 ^ k + 1 * 2 ^ k := by rw [← hone]; linarith
      _ = (((2 ^ m : Int) : ℚ) + 1) * 2 ^ k := by ring
      _ ≤ _ := h3
  · have h2 : (2 : ℚ) ^ (1 : Int) ≤ 2 ^ k := zpow_le_zpow_right₀ (by norm_num) (by omega)
    have h3 : (2 : ℚ) ^ (1 - (F.p : Int)) ≤ 2 ^ (0 : Int) := zpow_le_zpow_right₀ (by norm_num) (by have := F.one_le_p; omega)
    have hN1 : 1 ≤ N := by
      by_contra hc
      have : (N : ℚ) ≤ 0 := by exact_mod_cast (by omega : N ≤ 0)
      have := mul_nonpos_of_nonpos_of_nonneg this hk0.le
      linarith
    have hN1 : (1 : ℚ) ≤ N := by exact_mod_cast hN1
    have h4 := mul_le_mul_of_nonneg_right hN1 hk0.le
    rw [zpow_one] at h2
    rw [zpow_zero] at h3
    rw [e]
    linarith

/-- Dividing a number that is not tiny by one above 1 makes it smaller. -/
theorem div_shrinks {q δ : ℚ} (hδ : F.fl δ = δ) (h1 : 1 < δ) (hq : 4 * F.least ≤ q) : F.fl (q / δ) < q := by
  have hl := F.least_pos
  have hq0 : 0 < q := by linarith
  have hd0 : 0 < q / δ := by positivity
  rcases lt_or_ge |q / δ| F.least with h | h
  · have := (abs_le.1 (F.fl_le_least h)).2
    linarith
  · have hu := above_one hδ h1
    unfold Format.fl
    rw [if_neg (not_lt.2 h)]
    have he := Nearest.fl_error (p := F.p) (q / δ)
    rw [abs_of_pos hd0] at he
    have he := (abs_le.1 he).2
    have hp : (0 : ℚ) < 1 / 2 ^ F.p := by positivity
    have e1 : q / δ / 2 ^ F.p = q / δ * (1 / 2 ^ F.p) := by ring
    rw [e1] at he
    have h2 : q / δ * (1 + 2 * (1 / 2 ^ F.p)) ≤ q := by
      calc q / δ * (1 + 2 * (1 / 2 ^ F.p)) ≤ q / δ * δ := mul_le_mul_of_nonneg_left hu hd0.le
        _ = q := by field_simp
    have h3 := mul_pos hd0 hp
    linarith

theorem fl_abs (q : ℚ) : F.fl |q| = |F.fl q| := by
  rcases le_total 0 q with h | h
  · have := F.fl_mono h
    rw [F.fl_zero] at this
    rw [abs_of_nonneg h, abs_of_nonneg this]
  · have := F.fl_mono h
    rw [F.fl_zero] at this
    rw [abs_of_nonpos h, abs_of_nonpos this, F.fl_neg]

/-- The quotient. -/
theorem div_val {s d : Flt F} {q δ : ℚ} (hs : s.val = .num q) (hd : d.val = .num δ) (h1 : 1 < δ) :
    (s / d).val = .num (F.fl (q / δ)) ∧ |F.fl (q / δ)| ≤ |q| := by
  obtain ⟨r1, r2⟩ := Finite.repr hs
  have hle : |F.fl (q / δ)| ≤ |q| := by
    rw [← fl_abs, abs_div, abs_of_pos (by linarith : 0 < δ)]
    have : |q| / δ ≤ |q| := div_le_self (abs_nonneg _) h1.le
    have := F.fl_mono this
    rwa [fl_abs q, r1] at this
  refine ⟨?_, hle⟩
  rw [val_div, hs, hd]
  show F.round (if δ = 0 then (if q = 0 then .nan else .inf (decide (q < 0))) else .num (q / δ)) = _
  rw [if_neg (by linarith)]
  simp only [Format.round]
  rw [if_pos (lt_of_le_of_lt hle r2)]

/-- After enough divisions a step is tiny, and stays so. -/
theorem steps_shrink {d : Flt F} {δ : ℚ} (hd : d.val = .num δ) (h1 : 1 < δ) : ∀ (s : Flt F) (q : ℚ), s.val = .num q →
    ∃ k, ∃ r, ((· / d)^[k + 1] s).val = .num r ∧ |r| < 4 * F.least := by
  have hδ := (Finite.repr hd).1
  have key : ∀ (m : Nat) (s : Flt F) (q : ℚ), s.val = .num q → rank (rnd (.num |q|) : Flt F) ≤ m →
      ∃ k, ∃ r, ((· / d)^[k] s).val = .num r ∧ |r| < 4 * F.least := by
    intro m
    induction m with
    | zero =>
      intro s q hs hm
      obtain ⟨r1, r2⟩ := Finite.repr hs
      refine ⟨0, q, hs, ?_⟩
      by_contra hc
      have hc : 4 * F.least ≤ |q| := not_lt.1 hc
      have hv : (rnd (.num |q|) : Flt F).val = .num |q| := F.round_of (by rw [fl_abs, r1]) (by rwa [abs_abs])
      have h0 : (0 : Flt F) < rnd (.num |q|) := by
        rw [lt_iff, hv, val_zero, Dbl.lt_def]
        have := F.least_pos
        simp only [Dbl.ltb, decide_eq_true_eq]
        linarith
      have := rank_lt h0
      omega
    | succ m ih =>
      intro s q hs hm
      obtain ⟨r1, r2⟩ := Finite.repr hs
      by_cases hc : |q| < 4 * F.least
      · exact ⟨0, q, hs, hc⟩
      obtain ⟨e1, e2⟩ := div_val hs hd h1
      have hlt : |F.fl (q / δ)| < |q| := by
        have := div_shrinks hδ h1 (not_lt.1 hc)
        rwa [show |q| / δ = |q / δ| by rw [abs_div, abs_of_pos (by linarith : 0 < δ)], fl_abs] at this
      have hv : (rnd (.num |q|) : Flt F).val = .num |q| := F.round_of (by rw [fl_abs, r1]) (by rwa [abs_abs])
      have hv' : (rnd (.num |F.fl (q / δ)|) : Flt F).val = .num |F.fl (q / δ)| :=
        F.round_of (by rw [fl_abs, F.fl_idem]) (by rw [abs_abs]; exact lt_of_le_of_lt e2 r2)
      have hr : rank (rnd (.num |F.fl (q / δ)|) : Flt F) < rank (rnd (.num |q|) : Flt F) := by
        refine rank_lt ?_
        rw [lt_iff, hv, hv', Dbl.lt_def]
        simpa [Dbl.ltb] using hlt
      obtain ⟨k, r, h2, h3⟩ := ih (s / d) _ e1 (by omega)
      exact ⟨k + 1, r, h2, h3⟩
  intro s q hs
  obtain ⟨e1, -⟩ := div_val hs hd h1
  obtain ⟨k, r, h2, h3⟩ := key _ (s / d) _ e1 le_rfl
  exact ⟨k, r, h2, h3⟩

/-- The square of a tiny number is rounded to zero. -/
theorem square_underflow (hF : F.emin + 2 * F.p + 3 ≤ 0) {s : Flt F} {r : ℚ} (hs : s.val = .num r) (hr : |r| < 4 * F.least) : s * s = 0 := by
  have hu := zpow_pos Nearest.two_pos F.emin
  have hb : r * r < 2 ^ (F.emin - 1) := by
    have h1 : r * r < (4 * F.least) * (4 * F.least) := by
      rw [← abs_mul_abs_self r]
      exact mul_self_lt_mul_self (abs_nonneg _) hr
    have h2 : (4 * F.least) * (4 * F.least) = 2 ^ (2 * F.emin + 2 * F.p + 2) := by
      unfold Format.least
      rw [show (4 : ℚ) = 2 ^ (2 : Int) by norm_num, ← zpow_add₀ (by norm_num), ← zpow_add₀ (by norm_num)]
      congr 1
      ring
    have h3 : (2 : ℚ) ^ (2 * F.emin + 2 * F.p + 2) ≤ 2 ^ (F.emin - 1) := zpow_le_zpow_right₀ (by norm_num) (by omega)
    linarith
  have hfl : F.fl (r * r) = 0 := by
    have h0 : 0 ≤ r * r := mul_self_nonneg r
    have h1 : |r * r| < F.least := by
      rw [abs_of_nonneg h0]
      refine lt_of_lt_of_le hb ?_
      exact zpow_le_zpow_right₀ (by norm_num) (by have := F.one_le_p; omega)
    have := fl_subnormal (F := F) (y := r * r) (N := 0) h1 (by
      rw [Int.cast_zero, _root_.sub_zero, abs_div, abs_of_pos hu, abs_of_nonneg h0, div_lt_iff₀ hu]
      have e : (2 : ℚ) ^ (F.emin - 1) = 1 / 2 * 2 ^ F.emin := by
        rw [zpow_sub₀ (by norm_num), zpow_one]
        ring
      rwa [e] at hb)
    simpa using this
  refine ext ?_
  rw [val_mul, hs, val_zero]
  show F.round (.num (r * r)) = .num 0
  simp only [Format.round]
  rw [hfl, if_pos (by rw [abs_zero]; exact zpow_pos Nearest.two_pos _)]

theorem divided_replicate (n : Nat) : ∀ (k : Nat) (s : Flt F), divided cfg (List.replicate n s) k = List.replicate n ((· / cfg.stepDivider)^[k] s)
  | 0, _ => rfl
  | k + 1, s => by
    unfold divided
    rw [List.map_replicate, divided_replicate n k]
    rfl

/-- **C113 (termination).** In floating point, on a function that is NaN where an argument is, with a limit other than 0, a step divider above 1 and a
precision that is not negative, the search returns - from every start, whatever the function, the acceleration and the step. -/
theorem C113_terminates (hF : F.emin + 2 * F.p + 3 ≤ 0) (hl : Good sqrt abs eps) (hg : Propagates g) (hlim : 1 ≤ cfg.maxIterations)
    (hstep : cfg.initStep.Finite) {δ : ℚ} (hd : cfg.stepDivider.val = .num δ) (hδ : 1 < δ) (hprec : 0 ≤ cfg.precision) (initial : List (Flt F)) :
    ∃ r : List (Flt F), ∃ m, ∀ fuel ≥ m, (find (ieeeLib sqrt abs eps) cfg fuel initial).eval g = .ok r := by
  obtain ⟨q, hq⟩ := hstep
  obtain ⟨k, r, h1, h2⟩ := steps_shrink hd hδ _ q hq
  refine outer_terminates' hl hg k 0 (List.replicate initial.length cfg.initStep) initial (by omega) (by simp) ?_
  rw [divided_replicate]
  have h0 := square_underflow hF h1 h2
  have hz : ∀ n, (List.replicate n ((· / cfg.stepDivider)^[k + 1] cfg.initStep)).foldl (fun t s => t + s * s) 0 = 0 := by
    intro n
    induction n with
    | zero => rfl
    | succ n ih => rw [List.replicate_succ, List.foldl_cons, h0, Flt.add_zero]; exact ih
  unfold exitCriteria
  rw [hz]
  show decide (sqrt 0 ≤ cfg.precision) = true
  rw [hl.sqrt_zero]
  exact decide_eq_true hprec

/-- **C113 (divider 1).** With step divider 1, started where no step along a coordinate improves the value, the search never returns unless the step is
within the precision already, whatever the limit. -/
theorem C113_divider_one (hl : Good sqrt abs eps) (hd : cfg.stepDivider = 1) (initial : List (Flt F)) (hfin : ∀ x ∈ initial, x.Finite)
    (hmin : ∀ i x, initial[i]? = some x → ¬ g (initial.set i (x + cfg.initStep)) < g initial ∧ ¬ g (initial.set i (x - cfg.initStep)) < g initial)
    (hstep : ¬ sqrt ((List.replicate initial.length cfg.initStep).foldl (fun t s => t + s * s) 0) ≤ cfg.precision) (fuel : Nat) :
    (find (ieeeLib sqrt abs eps) cfg fuel initial).eval g = .throw "(out of fuel)" := by
  have hdiv : (List.replicate initial.length cfg.initStep).map (· / cfg.stepDivider) = List.replicate initial.length cfg.initStep := by
    rw [List.map_replicate, hd]
    congr 1
    refine ext ?_
    rw [val_div, val_one]
    have e : cfg.initStep.val / .num 1 = cfg.initStep.val := by
      rcases cfg.initStep.val with _ | s | q
      · rfl
      · show Dbl.inf (s != decide ((1 : ℚ) < 0)) = .inf s
        rw [show decide ((1 : ℚ) < 0) = false from by decide +kernel]
        cases s <;> rfl
      · show (if (1 : ℚ) = 0 then (if q = 0 then Dbl.nan else .inf (decide (q < 0))) else .num (q / 1)) = .num q
        rw [if_neg (by norm_num), div_one]
    rw [e, round_val]
  have hcw : (coordinatewise initial (List.replicate initial.length cfg.initStep)).eval g = .ok initial := by
    have key : ∀ n i, i + n = initial.length → (coordLoop (List.replicate initial.length cfg.initStep) n i initial).eval g = .ok initial := by
      intro n
      induction n with
      | zero => intro i _; rfl
      | succ n ih =>
        intro i hi
        have hlt : i < initial.length := by omega
        have e1 : initial[i]? = some initial[i] := List.getElem?_eq_getElem hlt
        have e2 : (List.replicate initial.length cfg.initStep)[i]? = some cfg.initStep := by simp [hlt]
        obtain ⟨m1, m2⟩ := hmin i _ e1
        unfold coordLoop
        simp only [e1, e2, Prog.eval_bind, Prog.eval_askMin, Res.ok_bind, if_neg m1, if_neg m2]
        exact ih (i + 1) (by omega)
    exact key _ 0 (by omega)
  have hex : ¬ exitCriteria (ieeeLib sqrt abs eps) cfg (List.replicate initial.length cfg.initStep) = true := by
    unfold exitCriteria
    rw [decide_eq_true_iff]
    exact hstep
  unfold find
  induction fuel with
  | zero => rfl
  | succ fuel ih =>
    simp only [outer, Prog.eval_bind, hcw, Res.ok_bind, if_pos (areEqual_self hl hfin), hdiv, if_neg hex]
    exact ih

/-! ## Concrete cases in `double` -/

theorem hooke64_good : Good sqrt64 abs64 (f64 (1 / 10 ^ 10)) where
  abs_zero := by decide +kernel
  abs_nan := by decide +kernel
  abs_inf := by
    intro x s hs
    have : x = (rnd (.inf s) : Flt binary64) := ext (by rw [hs]; rfl)
    subst this
    cases s <;> decide +kernel
  sqrt_zero := by decide +kernel
  eps_pos := by decide +kernel
  eps_finite := ⟨binary64.fl (1 / 10 ^ 10), by decide +kernel⟩

theorem foldl_nan (h : Flt binary64 → Flt binary64) (hn : h nanF = nanF) : ∀ (v : List (Flt binary64)) (t : Flt binary64), t = nanF ∨ nanF ∈ v →
    v.foldl (fun t x => t + h x) t = nanF
  | [], t, hv => by simpa using hv
  | x :: xs, t, hv => by
    rw [List.foldl_cons]
    refine foldl_nan h hn xs _ ?_
    rcases hv with rfl | hv
    · left; simp
    · rcases List.mem_cons.1 hv with e | e
      · left; rw [← e, hn]; simp
      · right; exact e

/-- The negated sum of the coordinates, unbounded below. -/
def falling (v : List (Flt binary64)) : Flt binary64 := v.foldl (fun t x => t + -x) 0

/-- The sum of the squares. -/
def squares (v : List (Flt binary64)) : Flt binary64 := v.foldl (fun t x => t + x * x) 0

theorem falling_propagates : Propagates falling := by
  intro v hv
  show nan (v.foldl _ _)
  rw [foldl_nan (fun x => -x) (by decide +kernel) v 0 (Or.inr hv)]
  rfl

theorem squares_propagates : Propagates squares := by
  intro v hv
  show nan (v.foldl _ _)
  rw [foldl_nan (fun x => x * x) (by decide +kernel) v 0 (Or.inr hv)]
  rfl

/-- On a function without a lower bound the search runs on to infinity and returns NaN. -/
example : (find (ieeeLib sqrt64 abs64 (f64 (1 / 10 ^ 10))) ⟨f64 (7 / 2), f64 (2 ^ 1000), 40, f64 (1 / 10 ^ 10), f64 10⟩ 41 [f64 0]).eval falling =
    .ok [nanF] := by decide +kernel

/-- `C113_terminates` covers the example program's configuration, on either function, from every start. -/
example (initial : List (Flt binary64)) : ∃ r : List (Flt binary64), ∃ m, ∀ fuel ≥ m,
    (find (ieeeLib sqrt64 abs64 (f64 (1 / 10 ^ 10))) ⟨f64 (7 / 2), f64 1, 1000, f64 (1 / 10 ^ 10), f64 10⟩ fuel initial).eval falling = .ok r :=
  C113_terminates (by decide) hooke64_good falling_propagates (by decide) ⟨1, by decide +kernel⟩ (δ := 10) (by decide +kernel) (by norm_num)
    (by decide +kernel) initial

/-- A run that ends within the precision of the minimum. -/
example : (find (ieeeLib sqrt64 abs64 (f64 (1 / 10 ^ 10))) ⟨f64 2, f64 1, 100, f64 (1 / 16), f64 2⟩ 20 [f64 3, f64 (-2)]).eval squares =
    .ok [0, 0] := by decide +kernel

/-- A start with an infinite coordinate. -/
example : ∃ v : List (Flt binary64), v[1]? = some nanF ∧ v.length = 2 ∧ ∀ fuel ≥ 1001,
    (find (ieeeLib sqrt64 abs64 (f64 (1 / 10 ^ 10))) ⟨f64 (7 / 2), f64 1, 1000, f64 (1 / 10 ^ 10), f64 10⟩ fuel [f64 3, rnd (.inf false)]).eval squares =
      .ok v :=
  (C113_not_finite (cfg := ⟨f64 (7 / 2), f64 1, 1000, f64 (1 / 10 ^ 10), f64 10⟩) hooke64_good squares_propagates [f64 3, rnd (.inf false)] (j := 1) (x := rnd (.inf false)) (by decide +kernel)
    (by rintro ⟨q, hq⟩; exact absurd hq (by rw [show ((rnd (.inf false) : Flt binary64)).val = .inf false from rfl]; exact nofun))).1 (by decide)

/-- Divider 1 at the minimum. -/
example (fuel : Nat) : (find (ieeeLib sqrt64 abs64 (f64 (1 / 10 ^ 10))) ⟨f64 (7 / 2), f64 1, 1000, f64 (1 / 10 ^ 10), 1⟩ fuel [f64 0]).eval squares =
    .throw "(out of fuel)" :=
  C113_divider_one hooke64_good rfl [f64 0] (by intro x hx; rw [List.mem_singleton] at hx; subst hx; exact ⟨0, by decide +kernel⟩)
    (by
      intro i x h
      match i, h with
      | 0, h =>
        obtain rfl : f64 0 = x := by simpa using h
        exact ⟨by decide +kernel, by decide +kernel⟩)
    (by decide +kernel) fuel

end K52.HookeJeeves
