import Mathlib.Data.Rat.Defs
import Mathlib.Algebra.Order.Ring.Rat
import Mathlib.Tactic.Linarith

/-!
# Doubles with NaN

`IeeeOrder` says how the comparisons `<` and `<=` of IEEE 754 numbers behave, and `IeeeArith` that NaN propagates; nothing else is
assumed of the arithmetic (so rounding and overflow are allowed).  `Dbl` is a concrete type with exact arithmetic, infinities and NaN
for which all of this holds; it is used in examples.
-/

namespace K52

/-- Comparison of IEEE 754 numbers: comparisons with NaN are false; the other numbers are totally preordered (the two zeros are equal). -/
class IeeeOrder (R : Type) [LT R] [LE R] where
  nan : R → Prop
  lt_num {a b : R} : a < b → ¬ nan a ∧ ¬ nan b
  le_iff {a b : R} : a ≤ b ↔ ¬ nan a ∧ ¬ nan b ∧ ¬ b < a
  lt_irrefl (a : R) : ¬ a < a
  lt_trans {a b c : R} : a < b → b < c → a < c
  lt_split {a b c : R} : a < c → ¬ nan b → a < b ∨ b < c

export IeeeOrder (nan)

/-- NaN propagates through arithmetic (and `-1 * x` is NaN only if `x` is). -/
class IeeeArith (R : Type) [LT R] [LE R] [Add R] [Sub R] [Mul R] [Div R] [Neg R] [One R] [IeeeOrder R] where
  add_left {a : R} (b : R) : nan a → nan (a + b)
  add_right (a : R) {b : R} : nan b → nan (a + b)
  sub_left {a : R} (b : R) : nan a → nan (a - b)
  sub_right (a : R) {b : R} : nan b → nan (a - b)
  mul_left {a : R} (b : R) : nan a → nan (a * b)
  mul_right (a : R) {b : R} : nan b → nan (a * b)
  div_left {a : R} (b : R) : nan a → nan (a / b)
  div_right (a : R) {b : R} : nan b → nan (a / b)
  neg_mul {a : R} : nan ((-1) * a) → nan a

/-- Without NaN a linear order is one. -/
def IeeeOrder.ofLinearOrder (R : Type) [LinearOrder R] : IeeeOrder R where
  nan _ := False
  lt_num _ := ⟨id, id⟩
  le_iff := by simp
  lt_irrefl := _root_.lt_irrefl
  lt_trans := _root_.lt_trans
  lt_split h _ := lt_or_lt_of_lt h
where
  /-- a number below another is below or above a third -/
  lt_or_lt_of_lt {a b c : R} (h : a < c) : a < b ∨ b < c := by
    rcases lt_or_ge a b with h1 | h1
    · exact Or.inl h1
    · exact Or.inr (lt_of_le_of_lt h1 h)

/-- Doubles with exact arithmetic: rational numbers, infinities and NaN (zero has no sign and counts as positive in a division). -/
inductive Dbl where
  | nan
  | inf (negative : Bool)
  | num (q : ℚ)
deriving DecidableEq

namespace Dbl

/-- IEEE addition. -/
def add : Dbl → Dbl → Dbl
  | nan, _ => nan
  | _, nan => nan
  | inf a, inf b => if a = b then inf a else nan
  | inf a, num _ => inf a
  | num _, inf b => inf b
  | num a, num b => num (a + b)

/-- Sign change. -/
def neg : Dbl → Dbl
  | nan => nan
  | inf a => inf (!a)
  | num a => num (-a)

/-- IEEE multiplication. -/
def mul : Dbl → Dbl → Dbl
  | nan, _ => nan
  | _, nan => nan
  | inf a, inf b => inf (a != b)
  | inf a, num b => if b = 0 then nan else inf (a != decide (b < 0))
  | num a, inf b => if a = 0 then nan else inf (b != decide (a < 0))
  | num a, num b => num (a * b)

/-- IEEE division. -/
def div : Dbl → Dbl → Dbl
  | nan, _ => nan
  | _, nan => nan
  | inf _, inf _ => nan
  | inf a, num b => inf (a != decide (b < 0))
  | num _, inf _ => num 0
  | num a, num b => if b = 0 then (if a = 0 then nan else inf (decide (a < 0))) else num (a / b)

/-- IEEE `<`. -/
def ltb : Dbl → Dbl → Bool
  | nan, _ => false
  | _, nan => false
  | inf a, inf b => a && !b
  | inf a, num _ => a
  | num _, inf b => !b
  | num a, num b => decide (a < b)

/-- IEEE `<=`. -/
def leb : Dbl → Dbl → Bool
  | nan, _ => false
  | _, nan => false
  | inf a, inf b => a || !b
  | inf a, num _ => a
  | num _, inf b => !b
  | num a, num b => decide (a ≤ b)

instance : Add Dbl := ⟨add⟩
instance : Neg Dbl := ⟨neg⟩
instance : Sub Dbl := ⟨fun a b => add a (neg b)⟩
instance : Mul Dbl := ⟨mul⟩
instance : Div Dbl := ⟨div⟩
instance : Zero Dbl := ⟨num 0⟩
instance : One Dbl := ⟨num 1⟩
instance : NatCast Dbl := ⟨fun n => num n⟩
instance : LT Dbl := ⟨fun a b => ltb a b = true⟩
instance : LE Dbl := ⟨fun a b => leb a b = true⟩
instance : DecidableLT Dbl := fun a b => inferInstanceAs (Decidable (ltb a b = true))
instance : DecidableLE Dbl := fun a b => inferInstanceAs (Decidable (leb a b = true))

theorem lt_def {a b : Dbl} : a < b ↔ ltb a b = true := Iff.rfl
theorem le_def {a b : Dbl} : a ≤ b ↔ leb a b = true := Iff.rfl

instance : IeeeOrder Dbl where
  nan a := a = .nan
  lt_num {a b} h := by
    rw [lt_def] at h
    cases a <;> cases b <;> simp [ltb] at h ⊢
  le_iff {a b} := by
    rw [le_def, lt_def]
    rcases a with _ | a | a <;> rcases b with _ | b | b <;> simp [ltb, leb]
    cases a <;> cases b <;> simp
  lt_irrefl a := by
    rw [lt_def]
    rcases a with _ | a | a <;> simp [ltb]
  lt_trans {a b c} h h' := by
    rw [lt_def] at *
    rcases a with _ | a | a <;> rcases b with _ | b | b <;> rcases c with _ | c | c <;> simp_all [ltb]
    linarith
  lt_split {a b c} h h' := by
    simp only [lt_def] at *
    rcases a with _ | a | a <;> rcases b with _ | b | b <;> rcases c with _ | c | c <;>
      first | (simp_all [ltb]; done) | (cases b <;> simp_all [ltb]; done) | skip
    simp only [ltb, decide_eq_true_eq] at *
    rcases lt_or_ge a b with h1 | h1
    · exact Or.inl h1
    · exact Or.inr (lt_of_le_of_lt h1 h)

instance : IeeeArith Dbl where
  add_left {a} b h := by cases (h : a = .nan); rfl
  add_right a {b} h := by cases (h : b = .nan); cases a <;> rfl
  sub_left {a} b h := by cases (h : a = .nan); rfl
  sub_right a {b} h := by cases (h : b = .nan); cases a <;> rfl
  mul_left {a} b h := by cases (h : a = .nan); rfl
  mul_right a {b} h := by cases (h : b = .nan); cases a <;> rfl
  div_left {a} b h := by cases (h : a = .nan); rfl
  div_right a {b} h := by cases (h : b = .nan); cases a <;> rfl
  neg_mul {a} h := by
    rcases a with _ | a | a
    · rfl
    · have e : (-1 : Dbl) * .inf a = .inf (a != decide ((-1 : ℚ) < 0)) := rfl
      rw [e] at h
      exact absurd h Dbl.noConfusion
    · have e : (-1 : Dbl) * .num a = .num (-1 * a) := rfl
      rw [e] at h
      exact absurd h Dbl.noConfusion

end Dbl

/-! ### Consequences -/

section
variable {R : Type} [LT R] [LE R] [IeeeOrder R]

theorem IeeeOrder.not_lt_nan_left {a b : R} (h : nan a) : ¬ a < b := fun h' => (lt_num h').1 h
theorem IeeeOrder.not_lt_nan_right {a b : R} (h : nan b) : ¬ a < b := fun h' => (lt_num h').2 h
theorem IeeeOrder.not_le_nan_left {a b : R} (h : nan a) : ¬ a ≤ b := fun h' => (le_iff.1 h').1 h
theorem IeeeOrder.not_le_nan_right {a b : R} (h : nan b) : ¬ a ≤ b := fun h' => (le_iff.1 h').2.1 h

/-- "Not larger" is transitive through numbers. -/
theorem IeeeOrder.not_lt_trans {a b c : R} (h1 : ¬ b < a) (h2 : ¬ c < b) (hb : ¬ nan b) : ¬ c < a := fun h =>
  (lt_split h hb).elim h2 h1

theorem IeeeOrder.lt_of_lt_of_not_lt {a b c : R} (h1 : a < b) (h2 : ¬ c < b) (hc : ¬ nan c) : a < c :=
  (lt_split h1 hc).elim id (fun h => absurd h h2)

theorem IeeeOrder.lt_of_not_lt_of_lt {a b c : R} (h1 : ¬ b < a) (h2 : b < c) (ha : ¬ nan a) : a < c :=
  (lt_split h2 ha).elim (fun h => absurd h h1) id

end
end K52
