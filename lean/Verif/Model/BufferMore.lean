import Verif.Model.ReceiveBuffer

/-!
# More calls on `util::ReceiveBuffer`: `at` without exceptions, pushing a range of the buffer onto itself
-/

namespace TT.RB

variable {cap : Nat}

/-- `at(i)` where the platform has no exceptions (`UTIL_HEADERS_VECTORSIMULATOR_NO_EXCEPTIONS`): it is
`operator[]`, and the conversion of the `std::size_t` argument to `size_type` keeps the low bits only.
Models util/VectorSimulator.h:69-76. (With exceptions `at` does not compile, see DESIGN.md.) -/
def at_ (B : Build) (b : RB cap) (i : Nat) : Res Byte := b.get B (trunc cap i)

/-- `buf.push_back(buf.begin() + i, buf.begin() + i + n)`: the iterators are places in the array, which
`std::copy` reads only after `ensure_space` may have moved the contents. `std::copy` is undefined if the
destination lies in the source range.
Models util/ReceiveBuffer.h:175-182 with iterators into the same buffer. -/
def pushBackOwnRange (B : Build) (b : RB cap) (i n : Nat) : Res (RB cap) := do
  let first := b.begin_ + i
  let b ← b.ensureSpace B (trunc cap n)
  let l ← copyWithin b.contents first (first + n) b.pastEnd
  let b := { b with pastEnd := trunc cap (b.pastEnd + n), contents := l }
  b.verifyInvariants B
  return b

end TT.RB
