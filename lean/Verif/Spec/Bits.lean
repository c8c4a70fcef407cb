/-!
# Specification vocabulary for integers and bit strings
-/

namespace K52

/-- Numeric value of a bit string, least significant bit first. -/
def bitsVal : List Bool → Nat
  | [] => 0
  | b :: bs => (if b then 1 else 0) + 2 * bitsVal bs

/-- The values a 32 bit `int` can hold. -/
def IsInt (x : Int) : Prop := -2147483648 ≤ x ∧ x ≤ 2147483647

/-- `x` is one of 1, 2, 4, 8, ... -/
def PowerOfTwo (x : Int) : Prop := ∃ k : Nat, x = 2 ^ k

end K52
