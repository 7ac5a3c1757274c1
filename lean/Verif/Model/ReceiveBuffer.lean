import Verif.Model.Base

/-!
# `util::ReceiveBuffer<SIZE, uint8_t>` (util/ReceiveBuffer.h, util/VectorSimulator.h)

Iterators are absolute indices into the wrapped `boost::array`.
Every access outside the array is the fault `ub`.
-/

namespace TT

/-- The data members of `util::ReceiveBuffer<SIZE>`. Models util/ReceiveBuffer.h:347-349;
`cap` is the template parameter `SIZE` = `CAPACITY` (util/ReceiveBuffer.h:55,69-71).
`contents` is the wrapped `boost::array<uint8_t, SIZE>` (util/ReceiveBuffer.h:65). -/
structure RB (cap : Nat) where
  begin_ : Nat
  pastEnd : Nat
  contents : List Byte
deriving DecidableEq, Repr

namespace RB
variable {cap : Nat}

/-- Default constructor. Models util/ReceiveBuffer.h:74-78 (`_contents()` value-initialises). -/
def new (cap : Nat) : RB cap :=
  { begin_ := 0, pastEnd := 0, contents := List.replicate cap 0 }

/-- `empty()`. Models util/ReceiveBuffer.h:119-121. -/
def empty (b : RB cap) : Bool := b.begin_ == b.pastEnd

/-- `size()`. Models util/ReceiveBuffer.h:124-126 (result converted to `size_type`). -/
def size (b : RB cap) : Nat := subT cap b.pastEnd b.begin_

/-- `max_size()`. Models util/ReceiveBuffer.h:129-131. -/
def maxSize (_ : RB cap) : Nat := cap

/-- Reading one element of the wrapped array. Simplification: `boost::array::operator[]`'s own
bounds assertion is folded into the fault `ub`. Models the accesses in util/ReceiveBuffer.h:143,151. -/
def rawGet (l : List Byte) (i : Nat) : Res Byte :=
  match l[i]? with
  | some v => .ok v
  | none => .error .ub

/-- Writing one element of the wrapped array. Models the accesses in util/ReceiveBuffer.h:143,168. -/
def rawSet (l : List Byte) (i : Nat) (v : Byte) : Res (List Byte) :=
  if i < l.length then .ok (l.set i v) else .error .ub

/-- `adjusted_index(i)`. Models util/ReceiveBuffer.h:305-307. -/
def adjustedIndex (b : RB cap) (i : Nat) : Nat := trunc cap (b.begin_ + i)

/-- `operator[](i)` used as a value. Models util/ReceiveBuffer.h:141-144. -/
def get (B : Build) (b : RB cap) (i : Nat) : Res Byte := do
  assertMsg B (decide (i < b.size))
  rawGet b.contents (b.adjustedIndex i)

/-- `operator[](i) = x`. Models util/ReceiveBuffer.h:141-144 (the reference is assigned). -/
def set (B : Build) (b : RB cap) (i : Nat) (x : Byte) : Res (RB cap) := do
  assertMsg B (decide (i < b.size))
  let l ← rawSet b.contents (b.adjustedIndex i) x
  return { b with contents := l }

/-- `front()`. Models util/VectorSimulator.h:94-100. -/
def front (B : Build) (b : RB cap) : Res Byte := b.get B 0

/-- `back()`. Models util/VectorSimulator.h:102-108. -/
def back (B : Build) (b : RB cap) : Res Byte := b.get B (subT cap b.size 1)

/-- `clear()`. Models util/ReceiveBuffer.h:157-160. -/
def clear (b : RB cap) : RB cap := { b with begin_ := 0, pastEnd := 0 }

/-- The element-by-element loop of `std::copy` within one array: `n` elements from index `src`
to index `dst`, lowest first. For the calls in util/ReceiveBuffer.h:273,337. -/
def copyLoop (l : List Byte) (src dst : Nat) : Nat → Res (List Byte)
  | 0 => .ok l
  | n + 1 => do
    let v ← rawGet l src
    let l ← rawSet l dst v
    copyLoop l (src + 1) (dst + 1) n

/-- `std::copy(first, last, d_first)` inside one array. By its contract the behaviour is undefined
if `last` is not reachable from `first` or `d_first` lies in `[first, last)`. For the calls in
util/ReceiveBuffer.h:273,337. -/
def copyWithin (l : List Byte) (first last dFirst : Nat) : Res (List Byte) :=
  if last < first then .error .ub
  else if first ≤ dFirst ∧ dFirst < last then .error .ub
  else copyLoop l first dFirst (last - first)

/-- `std::copy` from memory outside the array to index `i` of the array. For the calls in
util/ReceiveBuffer.h:93,178. -/
def writeAt (l : List Byte) (i : Nat) : List Byte → Res (List Byte)
  | [] => .ok l
  | x :: xs => do
    let l ← rawSet l i x
    writeAt l (i + 1) xs

/-- `slide_contents_forward()`, i.e. `idealContentsCopy(*this, *this)`.
Models util/ReceiveBuffer.h:310-312 and 336-340 (both arguments the same object). -/
def slideContentsForward (b : RB cap) : Res (RB cap) := do
  let l ← copyWithin b.contents b.begin_ b.pastEnd 0
  return { begin_ := 0, pastEnd := b.size, contents := l }

/-- `idealContentsCopy(source, dest)` for two different objects.
Models util/ReceiveBuffer.h:336-340. -/
def idealContentsCopy (source dest : RB cap) : Res (RB cap) :=
  if source.pastEnd < source.begin_ ∨ source.contents.length < source.pastEnd then .error .ub
  else do
    let l ← writeAt dest.contents 0
      ((source.contents.drop source.begin_).take (source.pastEnd - source.begin_))
    return { begin_ := 0, pastEnd := source.size, contents := l }

/-- Copy constructor. Models util/ReceiveBuffer.h:81-86. -/
def copyConstruct (other : RB cap) : Res (RB cap) :=
  idealContentsCopy other { begin_ := 0, pastEnd := other.size, contents := List.replicate cap 0 }

/-- Assignment from a different object. Models util/ReceiveBuffer.h:109-116, branch `else`. -/
def assign (this other : RB cap) : Res (RB cap) := idealContentsCopy other this

/-- Self-assignment. Models util/ReceiveBuffer.h:109-116, branch `this == &other`. -/
def selfAssign (this : RB cap) : Res (RB cap) := this.slideContentsForward

/-- `ensure_space(n)`; the argument has already been converted to `size_type` by the caller.
Models util/ReceiveBuffer.h:285-298. -/
def ensureSpace (B : Build) (b : RB cap) (n : Nat) : Res (RB cap) :=
  let b := if b.empty then { b with begin_ := 0, pastEnd := 0 } else b
  if promAdd B cap b.pastEnd n ≤ cap then .ok b
  else do
    assertMsg B (decide (promAdd B cap b.size n ≤ cap))
    b.slideContentsForward

/-- `verify_invariants()`. Models util/ReceiveBuffer.h:342-345. -/
def verifyInvariants (B : Build) (b : RB cap) : Res Unit := do
  assertMsg B (decide (b.begin_ ≤ b.pastEnd))
  assertMsg B (decide (b.pastEnd ≤ cap))

/-- `increment_pastEnd()`. Models util/ReceiveBuffer.h:319-323. -/
def incrementPastEnd (B : Build) (b : RB cap) : Res (RB cap) := do
  let b ← b.ensureSpace B 1
  let b := { b with pastEnd := trunc cap (b.pastEnd + 1) }
  assertMsg B (decide (b.pastEnd ≤ cap))
  return b

/-- `decrement_pastEnd()`. Models util/ReceiveBuffer.h:325-328. -/
def decrementPastEnd (B : Build) (b : RB cap) : Res (RB cap) := do
  assertMsg B (decide (b.pastEnd > b.begin_))
  return { b with pastEnd := subT cap b.pastEnd 1 }

/-- `increment_begin()`. Models util/ReceiveBuffer.h:330-333. -/
def incrementBegin (B : Build) (b : RB cap) : Res (RB cap) := do
  assertMsg B (decide (b.begin_ < b.pastEnd))
  return { b with begin_ := trunc cap (b.begin_ + 1) }

/-- `push_back(x)`. Models util/ReceiveBuffer.h:166-169.
Simplification: `x` is passed by value, i.e. it does not alias an element of the buffer itself
(the aliasing call is modelled separately by `pushBackAlias`). -/
def pushBack (B : Build) (b : RB cap) (x : Byte) : Res (RB cap) := do
  let b ← b.incrementPastEnd B
  b.set B (subT cap b.size 1) x

/-- `buf.push_back(buf[i])`: the argument is a reference to array element `begin + i`, which is
read only after `increment_pastEnd` may have moved the contents.
Models util/ReceiveBuffer.h:166-169 with an aliasing `const_reference`. -/
def pushBackAlias (B : Build) (b : RB cap) (i : Nat) : Res (RB cap) := do
  assertMsg B (decide (i < b.size))
  let a := b.adjustedIndex i
  let b ← b.incrementPastEnd B
  let x ← rawGet b.contents a
  b.set B (subT cap b.size 1) x

/-- `push_back(input_begin, input_end)`. Models util/ReceiveBuffer.h:175-182.
The range is given as the list of its elements; it is assumed not to point into this buffer. -/
def pushBackRange (B : Build) (b : RB cap) (xs : List Byte) : Res (RB cap) := do
  let b ← b.ensureSpace B (trunc cap xs.length)
  let l ← writeAt b.contents b.pastEnd xs
  let b := { b with pastEnd := trunc cap (b.pastEnd + xs.length), contents := l }
  b.verifyInvariants B
  return b

/-- Constructor from an iterator range. Models util/ReceiveBuffer.h:97-103. -/
def fromRange (B : Build) (xs : List Byte) : Res (RB cap) := (RB.new cap).pushBackRange B xs

/-- Constructor from pointer and length; `v` are the elements readable at the pointer, `len` has
type `size_type`. Models util/ReceiveBuffer.h:89-94. -/
def fromArray (v : List Byte) (len : Nat) : Res (RB cap) :=
  if v.length < len then .error .ub
  else do
    let l ← writeAt (List.replicate cap 0) 0 (v.take len)
    return { begin_ := 0, pastEnd := len, contents := l }

/-- What an external functor did when called with a byte limit: the bytes it stored at the
iterator it was given and the count it returned (see `Device` in Receiver.lean). The call is
util/ReceiveBuffer.h:196. -/
structure DeviceReply where
  written : List Byte
  ret : Byte
deriving DecidableEq, Repr

/-- `bufferFromExternalFunctorRef(f, n)`. Models util/ReceiveBuffer.h:192-200 together with
`ReceiveAdapterBase::operator()` (detail/bases/ReceiveAdapterBase.h:55-58), whose `uint8_t`
parameter and result narrow the limit and the count. Returns the new buffer and `actual`. -/
def bufferFromExternalFunctorRef (B : Build) (b : RB cap) (f : Byte → DeviceReply) (n : Nat) :
    Res (RB cap × Nat) := do
  let n := min n (subT cap cap b.size)
  let b ← b.ensureSpace B n
  let reply := f (UInt8.ofNat n)
  let l ← writeAt b.contents b.pastEnd reply.written
  let actual := reply.ret.toNat
  let b := { b with pastEnd := trunc cap (b.pastEnd + actual), contents := l }
  b.verifyInvariants B
  return (b, actual)

/-- Loop of `pop_front`. Models util/ReceiveBuffer.h:220-222. -/
def popFrontLoop (B : Build) (b : RB cap) : Nat → Res (RB cap)
  | 0 => .ok b
  | n + 1 => do
    let b ← b.incrementBegin B
    popFrontLoop B b n

/-- `pop_front(count)`. Models util/ReceiveBuffer.h:218-224. -/
def popFront (B : Build) (b : RB cap) (count : Nat) : Res (RB cap × Byte) := do
  let ret ← b.front B
  let b ← popFrontLoop B b count
  return (b, ret)

/-- Loop of `pop_back` (util/ReceiveBuffer.h:208-210) and of `erase` (274-276). -/
def popBackLoop (B : Build) (b : RB cap) : Nat → Res (RB cap)
  | 0 => .ok b
  | n + 1 => do
    let b ← b.decrementPastEnd B
    popBackLoop B b n

/-- `pop_back(count)`. Models util/ReceiveBuffer.h:206-212. -/
def popBack (B : Build) (b : RB cap) (count : Nat) : Res (RB cap × Byte) := do
  let ret ← b.back B
  let b ← popBackLoop B b count
  return (b, ret)

/-- `erase(first, last)`; iterators are absolute array indices, the returned iterator too.
Models util/ReceiveBuffer.h:256-279. -/
def erase (B : Build) (b : RB cap) (first last : Nat) : Res (RB cap × Nat) := do
  let startIndex := subT cap first b.begin_
  let endIndex := subT cap last b.begin_
  assertMsg B (decide (first < last))
  let len := subT cap endIndex startIndex
  if len = 0 then return (b, first)
  assertMsg B (decide (len ≤ b.size))
  if startIndex = 0 then
    let (b, _) ← b.popFront B len
    return (b, b.begin_ + startIndex)
  else if last = b.pastEnd then
    let (b, _) ← b.popBack B len
    return (b, b.begin_ + startIndex)
  else
    assertMsg B (decide (0 < startIndex))
    assertMsg B (decide (endIndex < b.size))
    let l ← copyWithin b.contents last b.pastEnd (b.begin_ + startIndex)
    let b ← popBackLoop B { b with contents := l } len
    return (b, b.begin_ + startIndex)

/-- `erase(position)`. Models util/ReceiveBuffer.h:249-251. -/
def eraseOne (B : Build) (b : RB cap) (position : Nat) : Res (RB cap × Nat) :=
  b.erase B position (position + 1)

end RB
end TT
