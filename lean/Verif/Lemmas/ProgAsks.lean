import Verif.Lemmas.Continuous

/-! # Where an algorithm asks, whatever the answers -/

set_option linter.unusedSectionVars false

namespace K52.Prog
variable {R α β : Type}

/-- Whatever the answers, every question is at a point of dimension `n`, a result satisfies `Q`, and nothing undefined happens unless `U`. -/
def Asks (U : Prop) (n : Nat) (Q : α → Prop) : Prog R α → Prop
  | .done (.ok a) => Q a
  | .done (.throw _) => True
  | .done .ub => U
  | .ask _ x k => x.length = n ∧ ∀ v, Asks U n Q (k v)

variable {U : Prop} {n : Nat} {Q : α → Prop} {Q' : β → Prop}

theorem Asks.bind {p : Prog R α} {f : α → Prog R β} (hp : Asks U n Q p) (hf : ∀ a, Q a → Asks U n Q' (f a)) : Asks U n Q' (p >>= f) := by
  induction p with
  | done r =>
    cases r with
    | ok a => exact hf a hp
    | throw w => exact trivial
    | ub => exact hp
  | ask m x k ih => exact ⟨hp.1, fun v => ih v (hp.2 v)⟩

theorem Asks.pure {a : α} (h : Q a) : Asks U n Q (pure a : Prog R α) := h

theorem Asks.askMin {x : List R} (h : x.length = n) : Asks U n (fun _ => True) (askMin x) := ⟨h, fun _ => trivial⟩

theorem Asks.askBind {x : List R} {f : R → Prog R β} (h : x.length = n) (hf : ∀ a, Asks U n Q' (f a)) : Asks U n Q' (Prog.askMin x >>= f) :=
  (Asks.askMin h).bind fun a _ => hf a

theorem Asks.lift {r : Res α} (h : ∀ a, r = .ok a → Q a) (hu : r = .ub → U) : Asks U n Q (lift r : Prog R α) := by
  cases r with
  | ok a => exact h a rfl
  | throw w => exact trivial
  | ub => exact hu rfl

theorem Asks.trace [Neg R] {g : List R → R} {p : Prog R α} (hp : Asks U n Q p) : ∀ x ∈ p.trace g, x.length = n := by
  induction p with
  | done r => intro x hx; cases hx
  | ask m y k ih =>
    intro x hx
    rcases List.mem_cons.1 hx with rfl | hx
    · exact hp.1
    · exact ih _ (hp.2 _) x hx

theorem Asks.eval [Neg R] {g : List R → R} {p : Prog R α} (hp : Asks U n Q p) {a : α} (h : p.eval g = .ok a) : Q a := by
  induction p with
  | done r =>
    have : r = .ok a := h
    subst this
    exact hp
  | ask m y k ih => exact ih _ (hp.2 _) h

theorem Asks.not_ub [Neg R] {g : List R → R} {p : Prog R α} (hp : Asks False n Q p) : p.eval g ≠ .ub := by
  induction p with
  | done r =>
    intro h
    have : r = .ub := h
    subst this
    exact hp
  | ask m y k ih => exact ih _ (hp.2 _)

end K52.Prog
