import Mathlib.Algebra.Order.Floor.Defs
import Mathlib.Algebra.Order.Floor.Ring
import Mathlib.Data.Rat.Floor

/-! # `std::floor` followed by the conversion to an integer -/

namespace K52

/-- `std::floor` of a `double`, as an integer. -/
class HasFloor (R : Type) where
  floor : R → Int

instance {R : Type} [Field R] [LinearOrder R] [IsStrictOrderedRing R] [FloorRing R] : HasFloor R := ⟨fun x => ⌊x⌋⟩

theorem hasFloor_eq {R : Type} [Field R] [LinearOrder R] [IsStrictOrderedRing R] [FloorRing R] (x : R) : HasFloor.floor x = ⌊x⌋ := rfl

end K52
