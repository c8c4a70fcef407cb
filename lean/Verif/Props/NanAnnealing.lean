import Verif.Model.IeeeAnnealing
import Verif.Props.Search
import Verif.Spec.Ieee

/-! # C91: simulated annealing with values that are NaN or infinite -/

set_option linter.unusedSectionVars false

namespace K52.IeeeAnnealing
open IeeeOrder Annealing

variable {R : Type} [Add R] [Sub R] [Mul R] [Div R] [Neg R] [Zero R] [One R] [NatCast R] [LT R] [LE R] [DecidableLT R] [DecidableLE R]
  [IeeeOrder R] [IeeeArith R]

/-- The outcome of one iteration. -/
theorem step_eval (exp : R → R) (cfg : Config R) (i : Nat) (current : List R) (l : Random.Lib) (g : List R → R)
    (r : List R × Random.Lib) (h : (step exp cfg i current l).eval g = .ok r) :
    ∃ nb p, neighbour cfg l current = .ok nb ∧ acceptance exp (g current) (g nb.1) (temperature cfg i) = .ok p ∧
      ((Random.base (R := R) nb.2).1 ≤ p ∧ r.1 = nb.1 ∨ ¬ (Random.base (R := R) nb.2).1 ≤ p ∧ r.1 = current) ∧
      r.2 = (Random.rand nb.2).2 := by
  simp only [step, Prog.eval_bind, Prog.eval_lift, Prog.eval_askMin, Res.ok_bind] at h
  obtain ⟨nb, hnb, h⟩ := Res.bind_eq_ok.1 h
  obtain ⟨p, hp, h⟩ := Res.bind_eq_ok.1 h
  obtain ⟨e, he, h⟩ := Res.bind_eq_ok.1 h
  simp only [Prog.pure_def, Prog.eval_done, Res.ok.injEq] at h
  subst h
  refine ⟨nb, p, hnb, hp, ?_⟩
  unfold Random.event at he
  obtain ⟨_, _, he⟩ := Res.bind_eq_ok.1 he
  cases he
  by_cases hc : (Random.base (R := R) nb.2).1 ≤ p
  · exact ⟨Or.inl ⟨hc, by simp [hc]⟩, rfl⟩
  · exact ⟨Or.inr ⟨hc, by simp [hc]⟩, rfl⟩

/-- A comparison with NaN on either side gives the probability NaN. -/
theorem acceptance_nan (exp : R → R) (hexp : ∀ x : R, nan x → nan (exp x)) {c n t p : R} (h : acceptance exp c n t = .ok p)
    (hn : nan c ∨ nan n) : nan p := by
  unfold acceptance at h
  split at h
  · cases h
  · split at h
    · next hlt => exact (hn.elim (lt_num hlt).2 (lt_num hlt).1).elim
    · cases h
      refine hexp _ (IeeeArith.div_left _ ?_)
      rcases hn with hn | hn
      · exact IeeeArith.sub_left _ hn
      · exact IeeeArith.sub_right _ hn

/-- **C91 (one iteration).** If the value of the current point or of the proposed neighbour is NaN, the point is kept. -/
theorem C91_step (exp : R → R) (hexp : ∀ x : R, nan x → nan (exp x)) (cfg : Config R) (i : Nat) (current : List R) (l : Random.Lib)
    (g : List R → R) (r : List R × Random.Lib) (h : (step exp cfg i current l).eval g = .ok r) :
    (nan (g current) → r.1 = current) ∧
    (∀ nb, neighbour cfg l current = .ok nb → nan (g nb.1) → r.1 = current) := by
  obtain ⟨nb, p, h1, h2, h3, _⟩ := step_eval exp cfg i current l g r h
  constructor
  · intro hn
    rcases h3 with ⟨h3, _⟩ | ⟨_, h3⟩
    · exact absurd h3 (not_le_nan_right (acceptance_nan exp hexp h2 (Or.inl hn)))
    · exact h3
  · intro nb' h1' hn
    rw [h1] at h1'
    cases h1'
    rcases h3 with ⟨h3, _⟩ | ⟨_, h3⟩
    · exact absurd h3 (not_le_nan_right (acceptance_nan exp hexp h2 (Or.inr hn)))
    · exact h3

theorem loop_succ (exp : R → R) (cfg : Config R) (n i : Nat) (current : List R) (l : Random.Lib) (g : List R → R) :
    (loop exp cfg (n + 1) i current l).eval g = ((step exp cfg i current l).eval g).bind fun s => (loop exp cfg n (i + 1) s.1 s.2).eval g := by
  rw [loop, Prog.eval_bind]
  rfl

/-- **C91 (NaN at the start).** Annealing that starts where the function is NaN returns the starting point: no number, however good, is
accepted instead. -/
theorem C91_nan_start (exp : R → R) (hexp : ∀ x : R, nan x → nan (exp x)) (cfg : Config R) (initial : List R) (g : List R → R)
    (hn : nan (g initial)) (l : Random.Lib) (r : List R × Random.Lib) (h : (find exp cfg l initial).eval g = .ok r) :
    r.1 = initial := by
  have key : ∀ (n i : Nat) (l : Random.Lib) (r : List R × Random.Lib), (loop exp cfg n i initial l).eval g = .ok r → r.1 = initial := by
    intro n
    induction n with
    | zero => intro i l r h; cases h; rfl
    | succ n ih =>
      intro i l r h
      rw [loop_succ] at h
      obtain ⟨s, hs, h⟩ := Res.bind_eq_ok.1 h
      rw [(C91_step exp hexp cfg i initial l g s hs).1 hn] at h
      exact ih _ _ _ h
  exact key _ _ _ _ h

/-- **C91 (NaN is never entered).** Annealing that starts where the function is a number returns a point where it is a number. -/
theorem C91_number_start (exp : R → R) (hexp : ∀ x : R, nan x → nan (exp x)) (cfg : Config R) (initial : List R) (g : List R → R)
    (hn : ¬ nan (g initial)) (l : Random.Lib) (r : List R × Random.Lib) (h : (find exp cfg l initial).eval g = .ok r) :
    ¬ nan (g r.1) := by
  have key : ∀ (n i : Nat) (c : List R) (l : Random.Lib) (r : List R × Random.Lib), ¬ nan (g c) →
      (loop exp cfg n i c l).eval g = .ok r → ¬ nan (g r.1) := by
    intro n
    induction n with
    | zero => intro i c l r hc h; cases h; exact hc
    | succ n ih =>
      intro i c l r hc h
      rw [loop_succ] at h
      obtain ⟨s, hs, h⟩ := Res.bind_eq_ok.1 h
      refine ih (i + 1) s.1 s.2 r ?_ h
      intro hns
      obtain ⟨nb, p, h1, h2, h3, _⟩ := step_eval exp cfg i c l g s hs
      rcases h3 with ⟨h3, e⟩ | ⟨_, e⟩
      · rw [e] at hns
        exact not_le_nan_right (acceptance_nan exp hexp h2 (Or.inr hns)) h3
      · rw [e] at hns
        exact hc hns
  exact key _ _ _ _ _ hn h

/-! ### No exceptions -/

/-- What is used of `double` and of `std::exp`: a ratio of two counts is not negative, and for `c` not above `n` and a temperature that is
not negative, `exp((c - n) / t)` is neither negative nor above 1 (it may be NaN). -/
structure ExpIeee (exp : R → R) : Prop where
  ratio (a b : Nat) : ¬ ((a : R) / (b : R) < 0)
  bounded (c n t : R) : ¬ t < 0 → ¬ n < c → ¬ exp ((c - n) / t) < 0 ∧ ¬ exp ((c - n) / t) > 1
  one : ¬ (1 : R) < 0

/-- One iteration returns. -/
theorem step_returns (exp : R → R) (he : ExpIeee exp) (cfg : Config R) (i : Nat) (current : List R)
    (g : List R → R) (h0 : current ≠ []) (h1 : current.length < 2147483648) (l : Random.Lib) :
    ∃ r, (step exp cfg i current l).eval g = .ok r ∧ r.1.length = current.length := by
  obtain ⟨nb, hnb, hlen⟩ : ∃ nb, neighbour cfg l current = .ok nb ∧ nb.1.length = current.length := by
    have hl : 0 < current.length := List.length_pos_iff.2 h0
    have ht : toInt ((current.length : Int) - 1) = (current.length : Int) - 1 := by
      unfold toInt
      rw [Int.bmod_eq_of_le] <;> omega
    have hd : ∃ r : Int, Random.discrete l 0 (toInt ((current.length : Int) - 1)) = .ok (r, (Random.rand l).2) ∧ 0 ≤ r ∧ r < current.length := by
      rw [ht]
      unfold Random.discrete
      have hm := Int.tmod_nonneg (a := ((Random.rand l).1 : Int)) (current.length : Int) (by omega)
      have hm2 := Int.tmod_lt_of_pos ((Random.rand l).1 : Int) (b := (current.length : Int)) (by omega)
      refine ⟨Int.tmod (Random.rand l).1 current.length, ?_, hm, hm2⟩
      have e1 : int32 ((current.length : Int) - 1 - 0) = .ok ((current.length : Int) - 1) := by
        unfold int32; rw [if_pos (by omega)]; simp
      have e2 : int32 ((current.length : Int) - 1 + 1) = .ok (current.length : Int) := by
        unfold int32; rw [if_pos (by omega)]; simp
      have e3 : int32 (Int.tmod (Random.rand l).1 current.length + 0) = .ok (Int.tmod (Random.rand l).1 current.length) := by
        unfold int32; rw [if_pos (by omega)]; simp
      rw [e1, Res.ok_bind, e2, Res.ok_bind, if_neg (by omega), e3, Res.ok_bind]
      rfl
    obtain ⟨r, hr, r0, r1⟩ := hd
    refine ⟨(current.set r.toNat (Random.continuous (Random.rand l).2 cfg.min cfg.max).1,
      (Random.continuous (Random.rand l).2 cfg.min cfg.max).2), ?_, by simp⟩
    unfold neighbour
    rw [hr, Res.ok_bind]
    dsimp only
    rw [if_pos ⟨r0, r1⟩]
    rfl
  obtain ⟨p, hp, p0, p1⟩ : ∃ p, acceptance exp (g current) (g nb.1) (temperature cfg i) = .ok p ∧ ¬ p < 0 ∧ ¬ p > 1 := by
    have ht : ¬ temperature cfg i < 0 := he.ratio _ _
    unfold acceptance
    rw [if_neg ht]
    split
    · exact ⟨1, rfl, he.one, lt_irrefl _⟩
    · next hlt => exact ⟨_, rfl, he.bounded _ _ _ ht hlt⟩
  have hev : Random.event nb.2 p = .ok (decide ((Random.base (R := R) nb.2).1 ≤ p), (Random.rand nb.2).2) := by
    unfold Random.event Random.validateProbability
    rw [if_neg (by rintro (h | h); exacts [p0 h, p1 h])]
    rfl
  simp only [step, Prog.eval_bind, Prog.eval_lift, Prog.eval_askMin, hnb, hp, hev, Res.ok_bind, Prog.pure_def, Prog.eval_done]
  refine ⟨_, rfl, ?_⟩
  dsimp only
  split
  · exact hlen
  · rfl

/-- **C91 (no exceptions).** Whatever values the function has, infinities and NaN included, annealing on a non-empty vector returns
normally. -/
theorem C91_returns (exp : R → R) (he : ExpIeee exp) (cfg : Config R) (initial : List R) (g : List R → R) (h0 : initial ≠ [])
    (h1 : initial.length < 2147483648) (l : Random.Lib) :
    ∃ r, (find exp cfg l initial).eval g = .ok r ∧ r.1.length = initial.length := by
  have key : ∀ (n i : Nat) (c : List R) (l : Random.Lib), c ≠ [] → c.length < 2147483648 →
      ∃ r, (loop exp cfg n i c l).eval g = .ok r ∧ r.1.length = c.length := by
    intro n
    induction n with
    | zero => intro i c l _ _; exact ⟨(c, l), rfl, rfl⟩
    | succ n ih =>
      intro i c l hc hl
      obtain ⟨s, hs, hsl⟩ := step_returns exp he cfg i c g hc hl l
      obtain ⟨r, hr, hrl⟩ := ih (i + 1) s.1 s.2 (by rintro e; rw [e] at hsl; exact hc (List.length_eq_zero_iff.1 hsl.symm)) (by omega)
      refine ⟨r, ?_, by omega⟩
      rw [loop_succ, hs]
      exact hr
  exact key _ _ _ _ h0 h1

/-! ### Infinite values -/

/-- **C91 (value minus infinity).** A point with value `-∞` is left only when the iteration's last `rand()` gives 0 (for a library
function with `exp(-∞) = 0` and `exp(NaN) = NaN`). -/
theorem C91_minus_infinity (exp : Dbl → Dbl) (hnan : exp .nan = .nan) (hexp : exp (.inf true) = .num 0) (cfg : Config Dbl)
    (i : Nat) (current : List Dbl) (l : Random.Lib) (g : List Dbl → Dbl) (hg : g current = .inf true) (r : List Dbl × Random.Lib)
    (h : (step exp cfg i current l).eval g = .ok r) (nb : List Dbl × Random.Lib) (hnb : neighbour cfg l current = .ok nb)
    (hr : (Random.rand nb.2).1 ≠ 0) : r.1 = current := by
  obtain ⟨nb', p, h1, h2, h3, _⟩ := step_eval exp cfg i current l g r h
  rw [hnb] at h1
  cases h1
  have hp : p = .nan ∨ p = .num 0 := by
    unfold acceptance at h2
    rw [hg] at h2
    split at h2
    · cases h2
    · next ht =>
      split at h2
      · next hlt =>
        rw [Dbl.lt_def] at hlt
        generalize g nb.1 = v at hlt
        rcases v with _ | v | v <;> simp [Dbl.ltb] at hlt
      · cases h2
        have harg : ∀ v t : Dbl, ¬ t < 0 → ((Dbl.inf true - v) / t = .nan ∨ (Dbl.inf true - v) / t = .inf true) := by
          intro v t ht
          change ¬ Dbl.ltb t (.num 0) = true at ht
          change Dbl.div (Dbl.add (.inf true) (Dbl.neg v)) t = _ ∨ Dbl.div (Dbl.add (.inf true) (Dbl.neg v)) t = _
          rcases v with _ | v | v
          · exact Or.inl rfl
          · cases v
            · rcases t with _ | t | t
              · exact Or.inl rfl
              · exact Or.inl rfl
              · right
                simp only [Dbl.ltb, decide_eq_true_eq] at ht
                simp [Dbl.neg, Dbl.add, Dbl.div, ht]
            · exact Or.inl rfl
          · rcases t with _ | t | t
            · exact Or.inl rfl
            · exact Or.inl rfl
            · right
              simp only [Dbl.ltb, decide_eq_true_eq] at ht
              simp [Dbl.neg, Dbl.add, Dbl.div, ht]
        rcases harg (g nb.1) _ ht with e | e
        · rw [e]; exact Or.inl hnan
        · rw [e]; exact Or.inr hexp
  rcases h3 with ⟨h3, _⟩ | ⟨_, h3⟩
  · exfalso
    rcases hp with rfl | rfl
    · exact not_le_nan_right (R := Dbl) rfl h3
    · change Dbl.leb (Dbl.div (.num (Random.rand nb.2).1) (.num nb.2.randMax)) (.num 0) = true at h3
      have hpos : (0 : ℚ) < ((Random.rand nb.2).1 : ℚ) := by exact_mod_cast Nat.pos_of_ne_zero hr
      simp only [Dbl.div] at h3
      split at h3
      · rw [if_neg hpos.ne'] at h3
        simp only [Dbl.leb, Bool.or_false, decide_eq_true_eq] at h3
        exact absurd h3 (not_lt.2 hpos.le)
      · next hm =>
        simp only [Dbl.leb, decide_eq_true_eq] at h3
        have : (0 : ℚ) < ((Random.rand nb.2).1 : ℚ) / nb.2.randMax := by
          have h0 : (0 : ℚ) ≤ nb.2.randMax := by exact_mod_cast Nat.zero_le _
          exact div_pos hpos (lt_of_le_of_ne h0 (Ne.symm hm))
        exact absurd h3 (not_le.2 this)
  · exact h3

/-! ### Concrete runs -/

namespace Examples

/-- A crude exponential function. -/
def exp : Dbl → Dbl
  | .nan => .nan
  | .inf true => .num 0
  | .inf false => .inf false
  | .num q => if q < 0 then .num (1 / 2) else if q = 0 then .num 1 else .num 2

theorem sub_notpos (c n : Dbl) (h : ¬ n < c) : ¬ Dbl.ltb (.num 0) (c - n) = true := by
  change ¬ Dbl.ltb n c = true at h
  change ¬ Dbl.ltb _ (Dbl.add c (Dbl.neg n)) = true
  rcases c with _ | (_ | _) | c <;> rcases n with _ | (_ | _) | n <;>
    first | (simp [Dbl.ltb, Dbl.neg, Dbl.add]; done) | (exact absurd rfl h) | skip
  simp only [Dbl.ltb, Dbl.neg, Dbl.add, decide_eq_true_eq] at *
  linarith

theorem div_notpos (d t : Dbl) (h : ¬ Dbl.ltb (.num 0) d = true) (ht : ¬ t < 0) : ¬ Dbl.ltb (.num 0) (d / t) = true := by
  change ¬ Dbl.ltb t (.num 0) = true at ht
  change ¬ Dbl.ltb _ (Dbl.div d t) = true
  rcases d with _ | (_ | _) | d <;> rcases t with _ | (_ | _) | t <;>
    first | (simp [Dbl.ltb, Dbl.div]; done) | (exact absurd rfl h) | (exact absurd rfl ht) | skip
  · simp only [Dbl.ltb, decide_eq_true_eq] at ht
    simp [Dbl.ltb, Dbl.div, ht]
  · simp only [Dbl.ltb, decide_eq_true_eq] at h ht
    simp only [Dbl.div]
    split
    · split
      · simp [Dbl.ltb]
      · next hd =>
        have : d < 0 := lt_of_le_of_ne (not_lt.1 h) hd
        simp [Dbl.ltb, this]
    · simp only [Dbl.ltb, decide_eq_true_eq, not_lt]
      exact div_nonpos_of_nonpos_of_nonneg (not_lt.1 h) (not_lt.1 ht)

theorem exp_ok : ExpIeee exp where
  ratio a b := by
    change ¬ Dbl.ltb (Dbl.div (.num a) (.num b)) (.num 0) = true
    have ha : (0 : ℚ) ≤ a := by exact_mod_cast Nat.zero_le _
    have hb : (0 : ℚ) ≤ b := by exact_mod_cast Nat.zero_le _
    simp only [Dbl.div]
    split
    · split
      · simp [Dbl.ltb]
      · simp [Dbl.ltb, ha]
    · simp only [Dbl.ltb, decide_eq_true_eq, not_lt]
      exact div_nonneg ha hb
  bounded c n t ht hnc := by
    have hx : ∀ x : Dbl, ¬ Dbl.ltb (.num 0) x = true → ¬ exp x < 0 ∧ ¬ exp x > 1 := by
      intro x hx
      rcases x with _ | x | x
      · exact ⟨by decide +kernel, by decide +kernel⟩
      · cases x
        · exact absurd rfl hx
        · exact ⟨by decide +kernel, by decide +kernel⟩
      · simp only [Dbl.ltb, decide_eq_true_eq, not_lt] at hx
        rcases lt_or_eq_of_le hx with h | h
        · simp only [exp, if_pos h]
          exact ⟨by decide +kernel, by decide +kernel⟩
        · subst h
          exact ⟨by decide +kernel, by decide +kernel⟩
    apply hx
    exact div_notpos _ _ (sub_notpos _ _ hnc) ht
  one := by decide +kernel

/-- Draws. -/
def lib : Random.Lib := ⟨7, fun i => (3 * i + 1) % 8⟩

/-- A run from a number that meets NaN values on the way (the function is NaN between 1 and 3), and one from NaN. -/
example : ((find exp ⟨6, .num 0, .num 4⟩ lib [.num 4, .num 0]).eval
      (fun v => if .num 1 < v.headD 0 ∧ v.headD 0 < .num 3 then .nan else v.headD 0)).bind (fun r => .ok r.1) = .ok [.num (4 / 7), .num 0] := by
  decide +kernel

example : ((find exp ⟨6, .num 0, .num 4⟩ lib [.num 2, .num 0]).eval
      (fun v => if .num 1 < v.headD 0 ∧ v.headD 0 < .num 3 then .nan else v.headD 0)).bind (fun r => .ok r.1) = .ok [.num 2, .num 0] := by
  decide +kernel

end Examples

end K52.IeeeAnnealing
