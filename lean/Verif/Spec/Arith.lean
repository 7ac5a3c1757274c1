import Verif.Model.Base

/-!
# The arithmetic bound of C50
-/

namespace TT

/-- The capacity is representable in the size type, and twice the capacity in the arithmetic type
(the wider of the size type and `int`). -/
structure Arith (B : Build) (cap : Nat) : Prop where
  lt64 : cap < 2 ^ 64
  dbl : 2 * cap ≤ 2 ^ max (leastBits cap) B.intBits

end TT
