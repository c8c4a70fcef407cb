import Verif.Model.Random

/-!
# Model of what `GetRandomBool` yields where the undefined steps of `Random` wrap around

With glibc (`RAND_MAX = 2^31 - 1`) the constructor of `Random` overflows an `int` and the bit extraction shifts by 31 and 32: undefined (C37).
This file reads those three steps the way x86 code does (products modulo 2^32, shift counts modulo 32), and says exactly what comes out.
It is a reading of what compiled code usually does, not something the language promises.
-/

namespace K52.Random

/-- The value of a 32-bit two's complement register. -/
def wrap32 (x : Int) : Int := (x + 2147483648) % 4294967296 - 2147483648

/-- The loop of the constructor, random.cpp:75-86, with products wrapping around. -/
def maxBitLoopWrap (randMax : Nat) : Nat → Int → Nat → Nat
  | 0, _, maxBit => maxBit
  | k + 1, value, maxBit =>
    if wrap32 (value * 2) > (randMax : Int) then maxBit else maxBitLoopWrap randMax k (wrap32 (value * 2)) (maxBit + 1)

/-- Constructor, random.cpp:67-87, wrapping around. -/
def newWrap (l : Lib) : State := ⟨(rand l).1, 0, maxBitLoopWrap l.randMax 32 1 0, (rand l).2⟩

/-- `GetNextBitFromBoolBase`, random.cpp:89-101, with shift counts taken modulo 32 (bit patterns as naturals). -/
def nextBitWrap (s : State) : Nat × State :=
  let s' := if s.nextBit > s.maxBit then { s with nextBit := 0, boolBase := (rand s.lib).1, lib := (rand s.lib).2 } else s
  (s'.boolBase &&& (1 <<< (s'.nextBit % 32)), { s' with nextBit := s'.nextBit + 1 })

/-- `n` consecutive calls of `GetRandomBool`, random.cpp:49-53. -/
def randomBoolsWrap : Nat → State → List Bool × State
  | 0, s => ([], s)
  | n + 1, s => (decide ((nextBitWrap s).1 = 0) :: (randomBoolsWrap n (nextBitWrap s).2).1, (randomBoolsWrap n (nextBitWrap s).2).2)

end K52.Random
