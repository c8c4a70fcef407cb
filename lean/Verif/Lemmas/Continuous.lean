import Verif.Model.Continuous
import Mathlib.Tactic.Ring
import Mathlib.Tactic.Linarith

/-! # Lemmas about algorithms that call an objective function -/

set_option linter.unusedSectionVars false

namespace K52.Prog
variable {R α β γ : Type}

@[simp] theorem pure_def (a : α) : (pure a : Prog R α) = .done (.ok a) := rfl
@[simp] theorem done_ok_bind (a : α) (f : α → Prog R β) : ((.done (.ok a) : Prog R α) >>= f) = f a := rfl
@[simp] theorem done_throw_bind (w : String) (f : α → Prog R β) : ((.done (.throw w) : Prog R α) >>= f) = .done (.throw w) := rfl
@[simp] theorem done_ub_bind (f : α → Prog R β) : ((.done .ub : Prog R α) >>= f) = .done .ub := rfl
@[simp] theorem ask_bind (m : Bool) (x : List R) (k : R → Prog R α) (f : α → Prog R β) :
    ((.ask m x k : Prog R α) >>= f) = .ask m x fun v => k v >>= f := rfl
@[simp] theorem throw_bind (w : String) (f : α → Prog R β) : ((Prog.throw w : Prog R α) >>= f) = Prog.throw w := rfl
@[simp] theorem ub_bind (f : α → Prog R β) : ((Prog.ub : Prog R α) >>= f) = Prog.ub := rfl

/-- What the algorithm computes when every question is answered by `g` (the function to be minimized). -/
def eval [Neg R] (g : List R → R) : Prog R α → Res α
  | .done r => r
  | .ask toMin x k => eval g (k (if toMin then g x else -g x))

/-- The points at which the algorithm asks for the value, in order. -/
def trace [Neg R] (g : List R → R) : Prog R α → List (List R)
  | .done _ => []
  | .ask toMin x k => x :: trace g (k (if toMin then g x else -g x))

variable [Neg R] (g : List R → R)

@[simp] theorem eval_done (r : Res α) : eval g (.done r : Prog R α) = r := rfl
@[simp] theorem trace_done (r : Res α) : trace g (.done r : Prog R α) = [] := rfl
@[simp] theorem eval_throw (w : String) : eval g (Prog.throw w : Prog R α) = .throw w := rfl
@[simp] theorem trace_throw (w : String) : trace g (Prog.throw w : Prog R α) = [] := rfl
@[simp] theorem eval_ub : eval g (Prog.ub : Prog R α) = .ub := rfl
@[simp] theorem trace_ub : trace g (Prog.ub : Prog R α) = [] := rfl
@[simp] theorem eval_askMin (x : List R) : eval g (askMin x) = .ok (g x) := rfl
@[simp] theorem trace_askMin (x : List R) : trace g (askMin x) = [x] := rfl
@[simp] theorem eval_lift (r : Res α) : eval g (lift r : Prog R α) = r := rfl
@[simp] theorem trace_lift (r : Res α) : trace g (lift r : Prog R α) = [] := rfl

theorem eval_bind (p : Prog R α) (f : α → Prog R β) : eval g (p >>= f) = eval g p >>= fun a => eval g (f a) := by
  induction p with
  | done r => cases r <;> rfl
  | ask m x k ih => simp only [ask_bind, eval]; exact ih _

theorem trace_bind (p : Prog R α) (f : α → Prog R β) :
    trace g (p >>= f) = trace g p ++ (match eval g p with | .ok a => trace g (f a) | _ => []) := by
  induction p with
  | done r => cases r <;> simp [trace, eval]
  | ask m x k ih => simp only [ask_bind, trace, eval, List.cons_append]; rw [ih]

theorem trace_bind_ok {p : Prog R α} {a : α} (h : eval g p = .ok a) (f : α → Prog R β) :
    trace g (p >>= f) = trace g p ++ trace g (f a) := by rw [trace_bind, h]

theorem mem_trace_bind {p : Prog R α} {f : α → Prog R β} {x : List R} :
    x ∈ trace g (p >>= f) ↔ x ∈ trace g p ∨ ∃ a, eval g p = .ok a ∧ x ∈ trace g (f a) := by
  rw [trace_bind, List.mem_append]
  cases h : eval g p with
  | ok a => simp
  | throw w => simp
  | ub => simp

end K52.Prog
