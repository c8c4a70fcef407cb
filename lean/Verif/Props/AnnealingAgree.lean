import Verif.Props.NanAnnealing

/-! # The two models of simulated annealing agree on numbers

The exact model of C46 (`Annealing`, over ℚ, with the NaN of the last iteration as a special outcome) and the IEEE model of C91
(`IeeeAnnealing`) at the type `Dbl` compute the same for objective functions whose values are numbers, so what C46 says holds of it. -/

set_option linter.unusedSectionVars false

namespace K52.IeeeAnnealing
open Annealing (Config Prob toInt)

/-- The numbers as doubles. -/
def embed (xs : List ℚ) : List Dbl := xs.map .num

def embedConfig (cfg : Config ℚ) : Config Dbl := ⟨cfg.iterations, .num cfg.min, .num cfg.max⟩

/-- What an exact outcome is in doubles. -/
def embedRes {α β : Type} (f : α → β) : Res α → Res β
  | .ok a => .ok (f a)
  | .throw w => .throw w
  | .ub => .ub

/-- The probability as a double. -/
def embedProb : Prob ℚ → Dbl
  | .nan => .nan
  | .val p => .num p

/-- An exponential function on doubles extends one on numbers. -/
structure ExpExtends (exp : ℚ → ℚ) (expD : Dbl → Dbl) : Prop where
  num (q : ℚ) : expD (.num q) = .num (exp q)
  minus_infinity : expD (.inf true) = .num 0
  nan : expD .nan = .nan

theorem num_sub (a b : ℚ) : (Dbl.num a - Dbl.num b : Dbl) = .num (a - b) := by
  change Dbl.add (.num a) (Dbl.neg (.num b)) = _
  simp only [Dbl.add, Dbl.neg, sub_eq_add_neg]

theorem num_div (a b : ℚ) (hb : b ≠ 0) : (Dbl.num a / Dbl.num b : Dbl) = .num (a / b) := by
  change Dbl.div (.num a) (.num b) = _
  simp only [Dbl.div]
  rw [if_neg hb]

theorem num_lt (a b : ℚ) : (Dbl.num a < Dbl.num b) ↔ a < b := by
  rw [Dbl.lt_def]; simp [Dbl.ltb]

theorem num_le (a b : ℚ) : (Dbl.num a ≤ Dbl.num b) ↔ a ≤ b := by
  rw [Dbl.le_def]; simp [Dbl.leb]

theorem base_num (l : Random.Lib) (h : l.randMax ≠ 0) : (Random.base (R := Dbl) l).1 = .num (Random.base (R := ℚ) l).1 :=
  num_div _ _ (by exact_mod_cast h)

theorem continuous_num (l : Random.Lib) (h : l.randMax ≠ 0) (a b : ℚ) :
    Random.continuous l (Dbl.num a) (Dbl.num b) = (.num (Random.continuous l a b).1, (Random.continuous l a b).2) := by
  simp only [Random.continuous]
  rw [base_num l h, num_sub]
  rfl

theorem discrete_lib {l : Random.Lib} {a b : Int} {r : Int × Random.Lib} (h : Random.discrete l a b = .ok r) : r.2 = (Random.rand l).2 := by
  unfold Random.discrete at h
  obtain ⟨_, _, h⟩ := Res.bind_eq_ok.1 h
  obtain ⟨_, _, h⟩ := Res.bind_eq_ok.1 h
  split at h
  · cases h
  · obtain ⟨_, _, h⟩ := Res.bind_eq_ok.1 h
    cases h
    rfl

theorem neighbour_agree (cfg : Config ℚ) (l : Random.Lib) (h : l.randMax ≠ 0) (xs : List ℚ) :
    neighbour (embedConfig cfg) l (embed xs) = embedRes (fun r => (embed r.1, r.2)) (Annealing.neighbour cfg l xs) := by
  unfold neighbour Annealing.neighbour
  have hlen : (embed xs).length = xs.length := List.length_map _
  rw [hlen]
  cases hd : Random.discrete l 0 (toInt ((xs.length : Int) - 1)) with
  | ok d =>
    rw [Res.ok_bind, Res.ok_bind]
    have hl : d.2.randMax ≠ 0 := by rw [discrete_lib hd]; exact h
    dsimp only [embedConfig]
    rw [continuous_num d.2 hl]
    split
    · simp only [embedRes, Res.pure_eq, embed, List.map_set]
    · rfl
  | throw w => rfl
  | ub => rfl

theorem temperature_agree (cfg : Config ℚ) (hc : 0 < cfg.iterations) (i : Nat) :
    temperature (embedConfig cfg) i = .num (Annealing.temperature cfg i) :=
  num_div _ _ (by exact_mod_cast hc.ne')

theorem acceptance_agree (exp : ℚ → ℚ) (expD : Dbl → Dbl) (he : ExpExtends exp expD) (c n t : ℚ) :
    acceptance expD (.num c) (.num n) (.num t) = embedRes embedProb (Annealing.acceptance exp c n t) := by
  unfold acceptance Annealing.acceptance
  have e0 : (Dbl.num t < 0) ↔ t < 0 := num_lt t 0
  by_cases ht : t < 0
  · rw [if_pos (e0.2 ht), if_pos ht]; rfl
  rw [if_neg (fun h => ht (e0.1 h)), if_neg ht]
  by_cases hlt : n < c
  · rw [if_pos ((num_lt _ _).2 hlt), if_pos hlt]; rfl
  rw [if_neg (fun h => hlt ((num_lt _ _).1 h)), if_neg hlt, num_sub]
  by_cases h0 : t = 0
  · rw [if_pos h0, h0]
    change Res.ok (expD (Dbl.div (.num (c - n)) (.num 0))) = _
    simp only [Dbl.div, if_true]
    by_cases hcn : c = n
    · rw [if_pos (sub_eq_zero.2 hcn), if_pos hcn, he.nan]; rfl
    · have hneg : c - n < 0 := by
        have := lt_of_le_of_ne (not_lt.1 hlt) hcn
        linarith
      rw [if_neg (fun h => hcn (sub_eq_zero.1 h)), if_neg hcn, decide_eq_true hneg, he.minus_infinity]; rfl
  · rw [if_neg h0, num_div _ _ h0, he.num]; rfl

theorem event_agree (l : Random.Lib) (h : l.randMax ≠ 0) (p : Prob ℚ) :
    Random.event l (embedProb p) = Annealing.event l p := by
  cases p with
  | nan =>
    unfold Random.event Random.validateProbability Annealing.event embedProb
    rw [if_neg (by rintro (h | h) <;> exact absurd h (by decide +kernel))]
    have : ¬ (Random.base (R := Dbl) l).1 ≤ .nan := IeeeOrder.not_le_nan_right (R := Dbl) rfl
    simp [this]
  | val p =>
    dsimp only [Random.event, Random.validateProbability, Annealing.event, embedProb]
    have e1 : (Dbl.num p < 0 ∨ Dbl.num p > 1) ↔ (p < 0 ∨ p > 1) := or_congr (num_lt p 0) (num_lt 1 p)
    by_cases hp : p < 0 ∨ p > 1
    · simp only [if_pos (e1.2 hp), if_pos hp]; rfl
    · simp only [if_neg (fun h => hp (e1.1 h)), if_neg hp, base_num l h, num_le, Res.ok_bind]

/-- One iteration. -/
theorem step_agree (exp : ℚ → ℚ) (expD : Dbl → Dbl) (he : ExpExtends exp expD) (cfg : Config ℚ) (hc : 0 < cfg.iterations) (i : Nat)
    (g : List ℚ → ℚ) (gD : List Dbl → Dbl) (hg : ∀ xs, gD (embed xs) = .num (g xs)) (xs : List ℚ) (l : Random.Lib) (h : l.randMax ≠ 0) :
    (step expD (embedConfig cfg) i (embed xs) l).eval gD =
      embedRes (fun r => (embed r.1, r.2)) ((Annealing.step exp cfg i xs l).eval g) := by
  simp only [step, Annealing.step, Prog.eval_bind, Prog.eval_lift, Prog.eval_askMin, Res.ok_bind, hg, temperature_agree cfg hc,
    neighbour_agree cfg l h]
  cases hn : Annealing.neighbour cfg l xs with
  | throw w => rfl
  | ub => rfl
  | ok nb =>
    simp only [embedRes, Res.ok_bind, hg, acceptance_agree exp expD he]
    have hl : nb.2.randMax ≠ 0 := by
      unfold Annealing.neighbour at hn
      obtain ⟨d, hd, hn⟩ := Res.bind_eq_ok.1 hn
      dsimp only at hn
      split at hn
      · cases hn
        show d.2.randMax ≠ 0
        rw [discrete_lib hd]; exact h
      · cases hn
    cases ha : Annealing.acceptance exp (g xs) (g nb.1) (Annealing.temperature cfg i) with
    | throw w => rfl
    | ub => rfl
    | ok p =>
      simp only [embedRes, Res.ok_bind, event_agree nb.2 hl]
      cases Annealing.event nb.2 p with
      | throw w => rfl
      | ub => rfl
      | ok e =>
        simp only [Res.ok_bind, Prog.pure_def, Prog.eval_done]
        split <;> rfl

/-- **C91 (numbers).** For a function whose values are numbers, the IEEE model gives what the exact model gives: C46 holds of it. -/
theorem C91_agrees (exp : ℚ → ℚ) (expD : Dbl → Dbl) (he : ExpExtends exp expD) (cfg : Config ℚ)
    (g : List ℚ → ℚ) (gD : List Dbl → Dbl) (hg : ∀ xs, gD (embed xs) = .num (g xs)) (initial : List ℚ) (l : Random.Lib) (h : l.randMax ≠ 0) :
    (find expD (embedConfig cfg) l (embed initial)).eval gD =
      embedRes (fun r => (embed r.1, r.2)) ((Annealing.find exp cfg l initial).eval g) := by
  have key : 0 < cfg.iterations → ∀ (n i : Nat) (xs : List ℚ) (l : Random.Lib), l.randMax ≠ 0 →
      (loop expD (embedConfig cfg) n i (embed xs) l).eval gD =
        embedRes (fun r => (embed r.1, r.2)) ((Annealing.loop exp cfg n i xs l).eval g) := by
    intro hc n
    induction n with
    | zero => intro i xs l _; rfl
    | succ n ih =>
      intro i xs l hl
      rw [loop_succ, step_agree exp expD he cfg hc i g gD hg xs l hl]
      have e2 : (Annealing.loop exp cfg (n + 1) i xs l).eval g =
          ((Annealing.step exp cfg i xs l).eval g).bind fun s => (Annealing.loop exp cfg n (i + 1) s.1 s.2).eval g := by
        rw [Annealing.loop, Prog.eval_bind]; rfl
      rw [e2]
      cases hs : (Annealing.step exp cfg i xs l).eval g with
      | throw w => rfl
      | ub => rfl
      | ok s =>
        have hsl : s.2.randMax ≠ 0 := by
          simp only [Annealing.step, Prog.eval_bind, Prog.eval_lift, Prog.eval_askMin, Res.ok_bind] at hs
          obtain ⟨nb, hnb, hs⟩ := Res.bind_eq_ok.1 hs
          obtain ⟨p, _, hs⟩ := Res.bind_eq_ok.1 hs
          obtain ⟨e, he, hs⟩ := Res.bind_eq_ok.1 hs
          cases hs
          have h1 : nb.2.randMax = l.randMax := by
            unfold Annealing.neighbour at hnb
            obtain ⟨d, hd, hnb⟩ := Res.bind_eq_ok.1 hnb
            dsimp only at hnb
            split at hnb
            · cases hnb
              show d.2.randMax = _
              rw [discrete_lib hd]; rfl
            · cases hnb
          have h2 : e.2.randMax = nb.2.randMax := by
            cases p with
            | nan => cases he; rfl
            | val p =>
              simp only [Annealing.event, Random.event] at he
              obtain ⟨_, _, he⟩ := Res.bind_eq_ok.1 he
              cases he; rfl
          show e.2.randMax ≠ 0
          rw [h2, h1]; exact hl
        exact ih (i + 1) s.1 s.2 hsl
  by_cases hc : 0 < cfg.iterations
  · exact key hc _ _ _ _ h
  · have h0 : cfg.iterations = 0 := by omega
    simp only [find, Annealing.find, embedConfig, h0]
    rfl

/-- Non-vacuity: such functions exist. -/
example : ExpExtends (fun q => if q < 0 then 1 / 2 else if q = 0 then 1 else 2) Examples.exp ∧
    ∀ xs : List ℚ, (embed xs).headD 0 = .num (xs.headD 0) := by
  refine ⟨⟨fun q => ?_, rfl, rfl⟩, fun xs => by cases xs <;> rfl⟩
  simp only [Examples.exp]
  split_ifs <;> rfl

end K52.IeeeAnnealing
