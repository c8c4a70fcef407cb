import Verif.Lemmas.Golden
import Verif.Model.GradientProg
import Verif.Lemmas.Continuous
import Mathlib.Algebra.BigOperators.Fin

/-!
# The gradient methods as programs compute what their functional models compute

`Verif.Model.GradientProg` (lists and questions) against `Verif.Model.Gradient` (functions on `Fin n`).
-/

namespace K52.GradientProg

open K52.Gradient (Vec)

variable {n : Nat}

/-- The program ends with `r` and asks only for points of dimension `n`. -/
structure Runs {α : Type} (g : List ℝ → ℝ) (n : Nat) (a : Prog ℝ α) (r : Res α) : Prop where
  eval : a.eval g = r
  dim : ∀ x ∈ a.trace g, x.length = n

/-- The outcome of a loop with fuel: still running, or `r`. -/
def fueled {α β : Type} (f : α → Res β) : Option α → Res β
  | none => .throw "(out of fuel)"
  | some a => f a

@[simp] theorem fueled_none {α β : Type} (f : α → Res β) : fueled f none = .throw "(out of fuel)" := rfl
@[simp] theorem fueled_some {α β : Type} (f : α → Res β) (a : α) : fueled f (some a) = f a := rfl

variable {g : List ℝ → ℝ}

theorem Runs.done {α : Type} (r : Res α) : Runs g n (.done r) r := ⟨rfl, by simp⟩

theorem Runs.pure {α : Type} (a : α) : Runs g n (Pure.pure a : Prog ℝ α) (.ok a) := Runs.done _

theorem Runs.ask {x : List ℝ} (h : x.length = n) : Runs g n (Prog.askMin x) (.ok (g x)) := ⟨rfl, by simpa using h⟩

theorem Runs.bind {α β : Type} {a : Prog ℝ α} {v : α} {k : α → Prog ℝ β} {r : Res β} (h : Runs g n a (.ok v)) (hk : Runs g n (k v) r) :
    Runs g n (a >>= k) r where
  eval := by rw [Prog.eval_bind, h.eval]; exact hk.eval
  dim := by
    intro x hx
    rw [Prog.trace_bind_ok _ h.eval, List.mem_append] at hx
    exact hx.elim (h.dim x) (hk.dim x)

theorem Runs.bind_throw {α β : Type} {a : Prog ℝ α} {w : String} {k : α → Prog ℝ β} (h : Runs g n a (.throw w)) :
    Runs g n (a >>= k) (.throw w) where
  eval := by rw [Prog.eval_bind, h.eval]; rfl
  dim := by
    intro x hx
    rw [Prog.trace_bind, h.eval, List.append_nil] at hx
    exact h.dim x hx

theorem set_ofFn (p : Vec n) (i : Fin n) (y : ℝ) : (List.ofFn p).set i y = List.ofFn (Function.update p i y) := by
  apply List.ext_getElem
  · simp
  · intro j h1 h2
    rw [List.getElem_set]
    simp only [List.getElem_ofFn, Function.update_apply, Fin.ext_iff]
    by_cases h : (i : Nat) = j
    · simp [h]
    · simp [h, Ne.symm h]

theorem zipWith_ofFn (f : ℝ → ℝ → ℝ) (p d : Vec n) : List.zipWith f (List.ofFn p) (List.ofFn d) = List.ofFn fun i => f (p i) (d i) := by
  apply List.ext_getElem
  · simp
  · intro j h1 h2
    simp

theorem along_ofFn (p : Vec n) (t : ℝ) (d : Vec n) : along (List.ofFn p) t (List.ofFn d) = List.ofFn (Gradient.along p t d) :=
  zipWith_ofFn _ p d

theorem squares_eq_sum (v : List ℝ) : squares v = (v.map fun x => x * x).sum := by
  have key : ∀ (v : List ℝ) (s : ℝ), v.foldl (fun s x => s + x * x) s = s + (v.map fun x => x * x).sum := by
    intro v
    induction v with
    | nil => intro s; simp
    | cons x xs ih => intro s; simp only [List.foldl_cons, ih, List.map_cons, List.sum_cons]; ring
  rw [squares, key, zero_add]

theorem squares_ofFn (v : Vec n) : squares (List.ofFn v) = Gradient.squares v := by
  rw [squares_eq_sum, List.map_ofFn, List.sum_ofFn]
  rfl

theorem derivative_ofFn (h : ℝ) (p : Vec n) (i : Fin n) :
    Runs g n (derivative h (List.ofFn p) i) (.ok (Gradient.derivative (fun v => g (List.ofFn v)) h p i)) := by
  have hi : (List.ofFn p)[(i : Nat)]? = some (p i) := by simp
  unfold derivative
  rw [hi]
  refine Runs.bind (Runs.ask (by simp)) (Runs.bind (Runs.ask (by simp)) ?_)
  simp only [set_ofFn]
  exact Runs.pure _

theorem gradientLoop_ofFn (h : ℝ) (p : Vec n) : ∀ (k i : Nat) (hk : i + k = n),
    Runs g n (gradientLoop h (List.ofFn p) k i)
      (.ok (List.ofFn fun j : Fin k => Gradient.derivative (fun v => g (List.ofFn v)) h p ⟨i + j, by omega⟩))
  | 0, i, hk => by simp only [gradientLoop]; exact Runs.pure _
  | k + 1, i, hk => by
    unfold gradientLoop
    refine Runs.bind (derivative_ofFn h p ⟨i, by omega⟩) (Runs.bind (gradientLoop_ofFn h p k (i + 1) (by omega)) ?_)
    rw [List.ofFn_succ]
    have : (List.ofFn fun j : Fin k => Gradient.derivative (fun v => g (List.ofFn v)) h p ⟨i + 1 + j, by omega⟩) =
        List.ofFn fun j : Fin k => Gradient.derivative (fun v => g (List.ofFn v)) h p ⟨i + (j.succ : Fin (k + 1)), by
          have := j.2; simp only [Fin.val_succ]; omega⟩ := by
      congr 1; funext j; congr 1; ext; simp only [Fin.val_succ]; omega
    rw [this]
    exact Runs.pure _

theorem gradient_ofFn (h : ℝ) (p : Vec n) :
    Runs g n (gradient h (List.ofFn p)) (.ok (List.ofFn (Gradient.gradient (fun v => g (List.ofFn v)) h p))) := by
  have := gradientLoop_ofFn (g := g) h p n 0 (by omega)
  unfold gradient
  rw [List.length_ofFn]
  convert this using 2
  congr 1
  funext j
  simp [Gradient.gradient]

/-! ### Steepest descent -/

namespace Sd
open Gradient.Sd (AbsImpl Config Borders kAlpha constriction narrow)

theorem shrink_ofFn (a : AbsImpl) (precision : ℝ) (p d : Vec n) : ∀ (fuel : Nat) (step : ℝ),
    Runs g n (shrink a precision (List.ofFn p) (List.ofFn d) fuel step)
      (fueled .ok (Gradient.Sd.shrink a precision (fun v => g (List.ofFn v)) p d fuel step))
  | 0, step => Runs.done _
  | fuel + 1, step => by
    unfold shrink Gradient.Sd.shrink
    simp only [along_ofFn]
    refine Runs.bind (Runs.ask (by simp)) (Runs.bind (Runs.ask (by simp)) ?_)
    split
    · exact shrink_ofFn a precision p d fuel _
    · exact Runs.pure _

theorem expand_ofFn (p d : Vec n) : ∀ (fuel : Nat) (step : ℝ) (next : Vec n),
    Runs g n (expand (List.ofFn p) (List.ofFn d) fuel step (List.ofFn next))
      (fueled (fun q => .ok (List.ofFn q)) (Gradient.Sd.expand (fun v => g (List.ofFn v)) p d fuel step next))
  | 0, step, _ => Runs.done _
  | fuel + 1, step, next => by
    unfold expand Gradient.Sd.expand
    simp only [along_ofFn]
    refine Runs.bind (Runs.ask (by simp)) (Runs.bind (Runs.ask (by simp)) ?_)
    split
    · exact expand_ofFn p d fuel _ _
    · exact Runs.pure _

theorem localization_ofFn (a : AbsImpl) (precision : ℝ) (fuel : Nat) (p : Vec n) (s : ℝ) (d : Vec n) :
    Runs g n (localization a precision fuel (List.ofFn p) s (List.ofFn d))
      (fueled .ok (Gradient.Sd.localization a precision (fun v => g (List.ofFn v)) fuel p s d)) := by
  unfold localization Gradient.Sd.localization
  have h1 := shrink_ofFn (g := g) a precision p d fuel (s * 2)
  cases e1 : Gradient.Sd.shrink a precision (fun v => g (List.ofFn v)) p d fuel (s * 2) with
  | none => rw [e1] at h1; exact Runs.bind_throw h1
  | some step =>
    rw [e1] at h1
    refine Runs.bind h1 ?_
    have h2 := expand_ofFn (g := g) p d fuel step (Gradient.along p step d)
    rw [along_ofFn]
    cases e2 : Gradient.Sd.expand (fun v => g (List.ofFn v)) p d fuel step (Gradient.along p step d) with
    | none => rw [e2] at h2; simpa [e2] using Runs.bind_throw h2
    | some q =>
      rw [e2] at h2
      refine Runs.bind h2 ?_
      rw [zipWith_ofFn, squares_ofFn]
      simp only [Option.bind_eq_bind, Option.bind_some, e2]
      exact Runs.pure _

theorem golden_ofFn (a : AbsImpl) (precision : ℝ) (p d : Vec n) : ∀ (fuel : Nat) (b : Borders),
    Runs g n (golden a precision (List.ofFn p) (List.ofFn d) fuel b)
      (fueled .ok (Gradient.Sd.golden a precision (fun v => g (List.ofFn v)) p d fuel b))
  | 0, b => Runs.done _
  | fuel + 1, b => by
    rw [Gradient.Sd.golden_round]
    unfold golden
    simp only [along_ofFn]
    refine Runs.bind (Runs.ask (by simp)) (Runs.bind (Runs.ask (by simp)) ?_)
    split
    · exact Runs.pure _
    · split
      · exact golden_ofFn a precision p d fuel _
      · exact Runs.pure _

theorem goldenSectionSearch_ofFn (a : AbsImpl) (precision : ℝ) (fuel : Nat) (p : Vec n) (s : ℝ) (d : Vec n) :
    Runs g n (goldenSectionSearch a precision fuel (List.ofFn p) s (List.ofFn d))
      (fueled .ok (Gradient.Sd.goldenSectionSearch a precision (fun v => g (List.ofFn v)) fuel p s d)) := by
  unfold goldenSectionSearch Gradient.Sd.goldenSectionSearch
  have h1 := localization_ofFn (g := g) a precision fuel p s d
  cases e1 : Gradient.Sd.localization a precision (fun v => g (List.ofFn v)) fuel p s d with
  | none => rw [e1] at h1; exact Runs.bind_throw h1
  | some t => rw [e1] at h1; exact Runs.bind h1 (golden_ofFn a precision p d fuel _)

theorem outer_ofFn (a : AbsImpl) (cfg : Config) : ∀ (fuel : Nat) (lambda : ℝ) (next : Vec n) (counter : Nat),
    Runs g n (outer a cfg fuel lambda (List.ofFn next) counter)
      (fueled (fun q => .ok (List.ofFn q)) (Gradient.Sd.outer a cfg (fun v => g (List.ofFn v)) fuel lambda next counter))
  | 0, _, _, _ => Runs.done _
  | fuel + 1, lambda, next, counter => by
    unfold outer Gradient.Sd.outer
    refine Runs.bind (gradient_ofFn cfg.increment next) ?_
    have hd : (List.ofFn (Gradient.gradient (fun v => g (List.ofFn v)) cfg.increment next)).map (· * -1) =
        List.ofFn fun i => Gradient.gradient (fun v => g (List.ofFn v)) cfg.increment next i * -1 := by
      rw [List.map_ofFn]; rfl
    simp only [hd]
    have h1 := goldenSectionSearch_ofFn (g := g) a cfg.precision fuel next lambda
      (fun i => Gradient.gradient (fun v => g (List.ofFn v)) cfg.increment next i * -1)
    cases e1 : Gradient.Sd.goldenSectionSearch a cfg.precision (fun v => g (List.ofFn v)) fuel next lambda
      (fun i => Gradient.gradient (fun v => g (List.ofFn v)) cfg.increment next i * -1) with
    | none => rw [e1] at h1; exact Runs.bind_throw h1
    | some t =>
      rw [e1] at h1
      refine Runs.bind h1 ?_
      simp only [along_ofFn]
      refine Runs.bind (gradient_ofFn cfg.increment _) ?_
      simp only [squares_ofFn]
      by_cases hc : ¬ Gradient.Sd.ExitCriteria cfg (fun v => g (List.ofFn v)) (Gradient.along next t
          fun i => Gradient.gradient (fun v => g (List.ofFn v)) cfg.increment next i * -1) ∧ ¬ counter + 1 = cfg.maxIterations
      · rw [if_pos hc, if_pos]
        · exact outer_ofFn a cfg fuel _ _ _
        · refine ⟨?_, hc.2⟩
          have := hc.1
          unfold Gradient.Sd.ExitCriteria at this
          exact not_not.1 this
      · rw [if_neg hc, if_neg]
        · exact Runs.pure _
        · intro h
          apply hc
          refine ⟨?_, h.2⟩
          unfold Gradient.Sd.ExitCriteria
          exact not_not.2 h.1

theorem find_ofFn (a : AbsImpl) (cfg : Config) (fuel : Nat) (p : Vec n) :
    Runs g n (find a cfg fuel (List.ofFn p))
      (fueled (fun q => .ok (List.ofFn q)) (Gradient.Sd.find a cfg (fun v => g (List.ofFn v)) fuel p)) :=
  outer_ofFn a cfg fuel 1 p 0

end Sd

/-! ### Conjugate gradients -/

namespace Cg
open Gradient.Cg (Config Line Outcome)

/-- What the program makes of the outcomes of the one-dimensional search. -/
def ofLine : Line → Res (Option ℝ)
  | .finite x => .ok (some x)
  | .nan => .ok none
  | .inf => .throw "(not a number)"

/-- What the program makes of the outcomes of the method. -/
def ofOutcome : Outcome n → Res (List ℝ)
  | .found q => .ok (List.ofFn q)
  | .error => .throw "runtime_error"
  | .nonfinite => .throw "(not a number)"

theorem lineSearch_ofFn (cfg : Config) (p d : Vec n) : ∀ (fuel : Nat) (x : ℝ),
    Runs g n (lineSearch cfg (List.ofFn p) (List.ofFn d) fuel x)
      (fueled ofLine (Gradient.Cg.lineSearch cfg (fun v => g (List.ofFn v)) p d fuel x))
  | 0, _ => Runs.done _
  | fuel + 1, x => by
    unfold lineSearch Gradient.Cg.lineSearch
    simp only [along_ofFn]
    refine Runs.bind (Runs.ask (by simp)) (Runs.bind (Runs.ask (by simp)) (Runs.bind (Runs.ask (by simp)) ?_))
    split
    · split
      · exact Runs.pure _
      · exact Runs.done _
    · split
      · exact lineSearch_ofFn cfg p d fuel _
      · exact Runs.pure _

theorem nextDirection_ofFn (u v : Vec n) (w : ℝ) (k : Nat) :
    nextDirection (List.ofFn u) (List.ofFn v) w k = List.ofFn (Gradient.Cg.nextDirection u v w k) := by
  unfold nextDirection Gradient.Cg.nextDirection
  split
  · exact zipWith_ofFn _ _ _
  · rfl

theorem outer_ofFn (cfg : Config) : ∀ (fuel : Nat) (p u v : Vec n) (w : ℝ) (k : Nat),
    Runs g n (outer cfg fuel (List.ofFn p) (List.ofFn u) (List.ofFn v) w k)
      (fueled ofOutcome (Gradient.Cg.outer cfg (fun v => g (List.ofFn v)) fuel p u v w k))
  | 0, _, _, _, _, _ => Runs.done _
  | fuel + 1, p, u, v, w, k => by
    unfold outer Gradient.Cg.outer
    simp only [nextDirection_ofFn]
    have h1 := lineSearch_ofFn (g := g) cfg p (Gradient.Cg.nextDirection u v w k) fuel 0
    cases e1 : Gradient.Cg.lineSearch cfg (fun v => g (List.ofFn v)) p (Gradient.Cg.nextDirection u v w k) fuel 0 with
    | none => rw [e1] at h1; exact Runs.bind_throw h1
    | some r =>
      rw [e1] at h1
      cases r with
      | inf => exact Runs.bind_throw h1
      | nan =>
        refine Runs.bind h1 ?_
        simp only [squares_ofFn]
        split
        · exact Runs.done _
        · exact Runs.done _
      | finite x =>
        refine Runs.bind h1 ?_
        simp only [along_ofFn, squares_ofFn]
        refine Runs.bind (gradient_ofFn cfg.increment _) ?_
        simp only [squares_ofFn]
        split
        · exact Runs.done _
        · split
          · exact Runs.pure _
          · split
            · exact outer_ofFn cfg fuel _ _ _ _ _
            · exact Runs.pure _

theorem find_ofFn (cfg : Config) (fuel : Nat) (p : Vec n) :
    Runs g n (find cfg fuel (List.ofFn p))
      (fueled ofOutcome (Gradient.Cg.find cfg (fun v => g (List.ofFn v)) fuel p)) := by
  unfold find Gradient.Cg.find
  refine Runs.bind (gradient_ofFn cfg.increment p) ?_
  rw [List.length_ofFn, ← List.ofFn_const]
  exact outer_ofFn cfg fuel _ _ _ _ _

end Cg
end K52.GradientProg
