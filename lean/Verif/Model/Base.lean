/-!
# Base vocabulary of the model

Outcomes of C++ code (value / undefined behaviour / failed assertion / no termination),
the build configuration, and the integer-width arithmetic of `boost::uint_value_t<N>::least`.
-/

namespace TT

/-- `stdint::uint8_t`. Models tuple-transmission/detail/types/IntegralTypes.h:32-34 and
tuple-transmission/detail/types/MessageIdType.h:33 (`MessageIdType` is the same type). -/
abbrev Byte := UInt8

/-- Ways in which a call can fail to produce a value.

* `ub`      : the C++ standard (or a library contract) leaves the behaviour undefined:
              out-of-bounds access, copy onto an overlapping destination, call through a null
              function pointer, dereference of an empty `boost::optional`.
* `abort`   : a `BOOST_ASSERT`/`BOOST_ASSERT_MSG` failed (util/BoostAssertMsg.h:42-96), only in
              builds with assertions enabled.
* `diverge` : the loop/recursion budget ("fuel") of the model ran out. -/
inductive Fault where
  | ub
  | abort
  | diverge
deriving DecidableEq, Repr

/-- Result of running a piece of C++: a value or a fault. The faults are those of
util/BoostAssertMsg.h:42-96 and of language rules. -/
abbrev Res (α : Type) := Except Fault α

/-- What the compiler and the platform choose.

* `debug`   : are `BOOST_ASSERT`s evaluated?  (util/BoostAssertMsg.h:44-96: with `NDEBUG` the
              argument is *not evaluated at all*.)
* `intBits` : width of `int`; arithmetic on narrower unsigned types is carried out in `int`
              (integral promotions), on wider ones in the type itself, modulo its width. -/
structure Build where
  debug : Bool
  intBits : Nat
deriving DecidableEq, Repr

/-- `BOOST_ASSERT_MSG(expr, msg)`. Models util/BoostAssertMsg.h:44-96.
Simplification: the message text is dropped. -/
def assertMsg (B : Build) (p : Bool) : Res Unit :=
  if B.debug && !p then .error .abort else .ok ()

/-- Width in bits of `boost::uint_value_t<n>::least`: the first of `unsigned char`,
`unsigned short`, `unsigned int`, `unsigned long` able to hold `n`.
Models the uses in util/ReceiveBuffer.h:56,64, detail/types/MessageSizeType.h:35 and
util/MPLApplyAt.h:137-139.
Simplification: the usual widths 8/16/32/64 are fixed; values beyond 2^64 do not compile. -/
def leastBits (n : Nat) : Nat :=
  if n < 2 ^ 8 then 8 else if n < 2 ^ 16 then 16 else if n < 2 ^ 32 then 32 else 64

/-- Conversion of a non-negative value to `boost::uint_value_t<n>::least` (modulo its width). The type of
util/ReceiveBuffer.h:64. -/
def trunc (n x : Nat) : Nat := x % 2 ^ leastBits n

/-- `a - b` computed on `boost::uint_value_t<n>::least` operands and converted back to that type.
(For narrow types the subtraction happens in `int` and may be negative; converting the result
back is the same as subtracting modulo the width.) Models the subtractions in util/ReceiveBuffer.h:125,194. -/
def subT (n a b : Nat) : Nat := (a + (2 ^ leastBits n - b % 2 ^ leastBits n)) % 2 ^ leastBits n

/-- A sum of two `boost::uint_value_t<n>::least` operands, *not* converted back: it is formed in
`int` if that type is narrower than `int`, else in the type itself, hence modulo the larger of the
two widths. Models the sums in util/ReceiveBuffer.h:291,295. -/
def promAdd (B : Build) (n a b : Nat) : Nat := (a + b) % 2 ^ max (leastBits n) B.intBits

end TT
