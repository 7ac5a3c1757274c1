import Verif.Model.Receive

/-!
# Every assertion switched on or off by itself

In `Verif.Model.ReceiveBuffer` and `Verif.Model.Receive` all assertions are on or all are off. Here each one is off, or
stops the program when it fails, or calls a function of the user (`BOOST_ENABLE_ASSERT_HANDLER`) that returns, so that
the code goes on. The functions are otherwise those of the two files.
-/

namespace TT

/-- What `BOOST_ASSERT(expr)` or `BOOST_ASSERT_MSG(expr, msg)` is. Models util/BoostAssertMsg.h:44-96.

* `off`  : `expr` is not evaluated (44-46);
* `stop` : `expr` is evaluated, and if it is false the program ends (64-95);
* `goOn` : `expr` is evaluated, and if it is false a function is called, and returns (48-60). -/
inductive AssertMode where
  | off
  | stop
  | goOn
deriving DecidableEq, Repr

/-- The assertions. Those of util/ReceiveBuffer.h:142 and 150 (`index`), 259, 264, 271, 272 (`erase...`), 295 (`space`),
322 (`endUp`), 326 (`endDown`), 331 (`beginUp`), 343, 344 (`invariant...`), of
detail/types/EnvelopeReceiveBuffer.h:107 (`pop`), 201 (`length`), of `boost::optional`, used in line 194 (`optional`),
and of detail/bases/EnvelopeBase.h:79 (`retry`). -/
inductive Site where
  | index
  | eraseOrder
  | eraseLength
  | eraseStart
  | eraseEnd
  | space
  | endUp
  | endDown
  | beginUp
  | invariantBegin
  | invariantEnd
  | pop
  | length
  | optional
  | retry
deriving DecidableEq, Repr

/-- What the compiler and the platform choose: the assertions, and the width of `int` as in `Build`. The macros are
those of util/BoostAssertMsg.h:44-96. -/
structure Asserts where
  mode : Site → AssertMode
  intBits : Nat

/-- The build that has this width of `int`, for sums. Models the sums in util/ReceiveBuffer.h:291,295. -/
def Asserts.build (A : Asserts) : Build := { debug := false, intBits := A.intBits }

/-- An assertion whose argument has no side effects. Models util/BoostAssertMsg.h:44-96. -/
def assertAt (A : Asserts) (s : Site) (p : Bool) : Res Unit :=
  if A.mode s = .stop ∧ p = false then .error .abort else .ok ()

namespace RB
variable {cap : Nat}

/-- `operator[](i)` used as a value. Models util/ReceiveBuffer.h:141-144. -/
def getA (A : Asserts) (b : RB cap) (i : Nat) : Res Byte := do
  assertAt A .index (decide (i < b.size))
  rawGet b.contents (b.adjustedIndex i)

/-- `operator[](i) = x`. Models util/ReceiveBuffer.h:141-144 (the reference is assigned). -/
def setA (A : Asserts) (b : RB cap) (i : Nat) (x : Byte) : Res (RB cap) := do
  assertAt A .index (decide (i < b.size))
  let l ← rawSet b.contents (b.adjustedIndex i) x
  return { b with contents := l }

/-- `front()`. Models util/VectorSimulator.h:94-100. -/
def frontA (A : Asserts) (b : RB cap) : Res Byte := b.getA A 0

/-- `back()`. Models util/VectorSimulator.h:102-108. -/
def backA (A : Asserts) (b : RB cap) : Res Byte := b.getA A (subT cap b.size 1)

/-- `ensure_space(n)`; the argument has already been converted to `size_type` by the caller.
Models util/ReceiveBuffer.h:285-298. -/
def ensureSpaceA (A : Asserts) (b : RB cap) (n : Nat) : Res (RB cap) :=
  let b := if b.empty then { b with begin_ := 0, pastEnd := 0 } else b
  if promAdd A.build cap b.pastEnd n ≤ cap then .ok b
  else do
    assertAt A .space (decide (promAdd A.build cap b.size n ≤ cap))
    b.slideContentsForward

/-- `verify_invariants()`. Models util/ReceiveBuffer.h:342-345. -/
def verifyInvariantsA (A : Asserts) (b : RB cap) : Res Unit := do
  assertAt A .invariantBegin (decide (b.begin_ ≤ b.pastEnd))
  assertAt A .invariantEnd (decide (b.pastEnd ≤ cap))

/-- `increment_pastEnd()`. Models util/ReceiveBuffer.h:319-323. -/
def incrementPastEndA (A : Asserts) (b : RB cap) : Res (RB cap) := do
  let b ← b.ensureSpaceA A 1
  let b := { b with pastEnd := trunc cap (b.pastEnd + 1) }
  assertAt A .endUp (decide (b.pastEnd ≤ cap))
  return b

/-- `decrement_pastEnd()`. Models util/ReceiveBuffer.h:325-328. -/
def decrementPastEndA (A : Asserts) (b : RB cap) : Res (RB cap) := do
  assertAt A .endDown (decide (b.pastEnd > b.begin_))
  return { b with pastEnd := subT cap b.pastEnd 1 }

/-- `increment_begin()`. Models util/ReceiveBuffer.h:330-333. -/
def incrementBeginA (A : Asserts) (b : RB cap) : Res (RB cap) := do
  assertAt A .beginUp (decide (b.begin_ < b.pastEnd))
  return { b with begin_ := trunc cap (b.begin_ + 1) }

/-- `push_back(x)`. Models util/ReceiveBuffer.h:166-169. -/
def pushBackA (A : Asserts) (b : RB cap) (x : Byte) : Res (RB cap) := do
  let b ← b.incrementPastEndA A
  b.setA A (subT cap b.size 1) x

/-- `push_back(input_begin, input_end)`. Models util/ReceiveBuffer.h:175-182.
The range is given as the list of its elements; it is assumed not to point into this buffer. -/
def pushBackRangeA (A : Asserts) (b : RB cap) (xs : List Byte) : Res (RB cap) := do
  let b ← b.ensureSpaceA A (trunc cap xs.length)
  let l ← writeAt b.contents b.pastEnd xs
  let b := { b with pastEnd := trunc cap (b.pastEnd + xs.length), contents := l }
  b.verifyInvariantsA A
  return b

/-- Constructor from an iterator range. Models util/ReceiveBuffer.h:97-103. -/
def fromRangeA (A : Asserts) (xs : List Byte) : Res (RB cap) := (RB.new cap).pushBackRangeA A xs

/-- `bufferFromExternalFunctorRef(f, n)`. Models util/ReceiveBuffer.h:192-200 together with
`ReceiveAdapterBase::operator()` (detail/bases/ReceiveAdapterBase.h:55-58), whose `uint8_t`
parameter and result narrow the limit and the count. Returns the new buffer and `actual`. -/
def bufferFromExternalFunctorRefA (A : Asserts) (b : RB cap) (f : Byte → DeviceReply) (n : Nat) :
    Res (RB cap × Nat) := do
  let n := min n (subT cap cap b.size)
  let b ← b.ensureSpaceA A n
  let reply := f (UInt8.ofNat n)
  let l ← writeAt b.contents b.pastEnd reply.written
  let actual := reply.ret.toNat
  let b := { b with pastEnd := trunc cap (b.pastEnd + actual), contents := l }
  b.verifyInvariantsA A
  return (b, actual)

/-- Loop of `pop_front`. Models util/ReceiveBuffer.h:220-222. -/
def popFrontLoopA (A : Asserts) (b : RB cap) : Nat → Res (RB cap)
  | 0 => .ok b
  | n + 1 => do
    let b ← b.incrementBeginA A
    popFrontLoopA A b n

/-- `pop_front(count)`. Models util/ReceiveBuffer.h:218-224. -/
def popFrontA (A : Asserts) (b : RB cap) (count : Nat) : Res (RB cap × Byte) := do
  let ret ← b.frontA A
  let b ← popFrontLoopA A b count
  return (b, ret)

/-- Loop of `pop_back` (util/ReceiveBuffer.h:208-210) and of `erase` (274-276). -/
def popBackLoopA (A : Asserts) (b : RB cap) : Nat → Res (RB cap)
  | 0 => .ok b
  | n + 1 => do
    let b ← b.decrementPastEndA A
    popBackLoopA A b n

/-- `pop_back(count)`. Models util/ReceiveBuffer.h:206-212. -/
def popBackA (A : Asserts) (b : RB cap) (count : Nat) : Res (RB cap × Byte) := do
  let ret ← b.backA A
  let b ← popBackLoopA A b count
  return (b, ret)

/-- `erase(first, last)`; iterators are absolute array indices, the returned iterator too.
Models util/ReceiveBuffer.h:256-279. -/
def eraseA (A : Asserts) (b : RB cap) (first last : Nat) : Res (RB cap × Nat) := do
  let startIndex := subT cap first b.begin_
  let endIndex := subT cap last b.begin_
  assertAt A .eraseOrder (decide (first < last))
  let len := subT cap endIndex startIndex
  if len = 0 then return (b, first)
  assertAt A .eraseLength (decide (len ≤ b.size))
  if startIndex = 0 then
    let (b, _) ← b.popFrontA A len
    return (b, b.begin_ + startIndex)
  else if last = b.pastEnd then
    let (b, _) ← b.popBackA A len
    return (b, b.begin_ + startIndex)
  else
    assertAt A .eraseStart (decide (0 < startIndex))
    assertAt A .eraseEnd (decide (endIndex < b.size))
    let l ← copyWithin b.contents last b.pastEnd (b.begin_ + startIndex)
    let b ← popBackLoopA A { b with contents := l } len
    return (b, b.begin_ + startIndex)

/-- `erase(position)`. Models util/ReceiveBuffer.h:249-251. -/
def eraseOneA (A : Asserts) (b : RB cap) (position : Nat) : Res (RB cap × Nat) :=
  b.eraseA A position (position + 1)

end RB

namespace ERB
variable {C : Collection}

/-- `bufferAppend(begin, end)`. Models detail/types/EnvelopeReceiveBuffer.h:77-80. -/
def bufferAppendA (A : Asserts) (r : ERB C) (xs : List Byte) : Res (ERB C) := do
  let b ← r.buf.pushBackRangeA A xs
  return { r with buf := b }

/-- `bufferFront()`. Models detail/types/EnvelopeReceiveBuffer.h:130-137. -/
def bufferFrontA (A : Asserts) (r : ERB C) : Res Byte := r.buf.frontA A

/-- `bufferPopFront(count)`; the returned element is never used by the callers.
Models detail/types/EnvelopeReceiveBuffer.h:141-143. -/
def bufferPopFrontA (A : Asserts) (r : ERB C) (count : Nat) : Res (ERB C) := do
  let (b, _) ← r.buf.popFrontA A count
  return { r with buf := b }

/-- `buffer(i)`. Models detail/types/EnvelopeReceiveBuffer.h:146-153. -/
def bufferA (A : Asserts) (r : ERB C) (i : Nat) : Res Byte := r.buf.getA A i

/-- `bufferFromFunctorRef`. Models detail/types/EnvelopeReceiveBuffer.h:159-162. -/
def bufferFromFunctorRefA (A : Asserts) (r : ERB C) (f : Byte → RB.DeviceReply) (n : Nat) :
    Res (ERB C × Nat) := do
  let (b, k) ← r.buf.bufferFromExternalFunctorRefA A f n
  return ({ r with buf := b }, k)

/-- `getCurrentMessageId()`: dereferences the optional; undefined if it is empty
(`boost::optional` asserts it in debug builds).
Models detail/types/EnvelopeReceiveBuffer.h:193-195. -/
def getCurrentMessageIdA (A : Asserts) (r : ERB C) : Res Byte := do
  assertAt A .optional r.currentMessageId.isSome
  match r.currentMessageId with
  | some id => .ok id
  | none => .error .ub

/-- `getMessageLength()`. Models detail/types/EnvelopeReceiveBuffer.h:200-203. -/
def getMessageLengthA (A : Asserts) (r : ERB C) : Res Nat := do
  assertAt A .length r.isCurrentMessageIdValid
  let id ← r.getCurrentMessageIdA A
  TT.getMessageLength C id

end ERB

/-- Loop that drops bytes until a start code is at the front.
Models envelopes/Basic.h:71-79 and, textually identical, envelopes/BasicChecksum.h:76-84. -/
def skipToSOHA {C : Collection} (A : Asserts) : Nat → ERB C → Res (ERB C)
  | 0, _ => .error .diverge
  | fuel + 1, r =>
    if r.bufferEmpty then .ok r
    else do
      let c ← r.bufferFrontA A
      if c ≠ SOH then
        let r ← r.bufferPopFrontA A 1
        skipToSOHA A fuel r
      else .ok r

/-- `EnvelopeBase::popAndRetry`; `retry` is the recursive call of `checkBufferForMessage`.
Models detail/bases/EnvelopeBase.h:76-85. -/
def popAndRetryA {C : Collection} (A : Asserts) (retry : ERB C → Res (ERB C × Bool)) (r : ERB C) :
    Res (ERB C × Bool) := do
  assertAt A .retry (!r.bufferEmpty)
  if r.bufferEmpty then return (r, false)
  let r ← r.bufferPopFrontA A 1
  retry r

/-- `Basic::checkBufferForMessage`. Models envelopes/Basic.h:68-123. The first argument bounds the
depth of the recursion through `popAndRetry`.
`msgLength - 2` is formed on the message size type; the index parameter is the buffer size type. -/
def checkBasicA {C : Collection} (A : Asserts) : Nat → ERB C → Res (ERB C × Bool)
  | 0, _ => .error .diverge
  | depth + 1, r => do
    let r ← skipToSOHA A (r.bufferSize + 1) r
    if r.bufferSize < 2 then return (r, false)
    let idByte ← r.bufferA A 1
    let r := r.setCurrentMessageId idByte
    if !r.isCurrentMessageIdValid then popAndRetryA A (checkBasicA A depth) r
    else if r.bufferSize < 3 then return (r, false)
    else
      let c2 ← r.bufferA A 2
      if c2 ≠ STX then popAndRetryA A (checkBasicA A depth) r
      else
        let msgLength ← r.getMessageLengthA A
        if r.bufferSize < msgLength then return (r, false)
        else
          let e2 ← r.bufferA A (subT (recvBufferSize C) msgLength 2)
          -- `||` evaluates its right operand only if the left one is false
          let bad ← (if e2 ≠ ETX then (.ok true : Res Bool) else do
            let e1 ← r.bufferA A (subT (recvBufferSize C) msgLength 1)
            return decide (e1 ≠ EOT))
          if bad then popAndRetryA A (checkBasicA A depth) r
          else return (r, true)

/-- The receive-side checksum loop `for (i = 0; i < msgLength - 2; ++i) checksum.output(buffer(i))`.
Models envelopes/BasicChecksum.h:126-130; counts `n` remaining iterations from index `i`. -/
def checksumLoopA {C : Collection} (A : Asserts) (r : ERB C) (ck : Byte) (i : Nat) : Nat → Res Byte
  | 0 => .ok ck
  | n + 1 => do
    let v ← r.bufferA A i
    let ck ← checksumComputer.writeByte ck v
    checksumLoopA A r ck (i + 1) n

/-- `BasicChecksum::checkBufferForMessage`. Models envelopes/BasicChecksum.h:73-147. -/
def checkChecksumA {C : Collection} (A : Asserts) : Nat → ERB C → Res (ERB C × Bool)
  | 0, _ => .error .diverge
  | depth + 1, r => do
    let r ← skipToSOHA A (r.bufferSize + 1) r
    if r.bufferSize < 2 then return (r, false)
    let idByte ← r.bufferA A 1
    let r := r.setCurrentMessageId idByte
    if !r.isCurrentMessageIdValid then popAndRetryA A (checkChecksumA A depth) r
    else if r.bufferSize < 3 then return (r, false)
    else
      let c2 ← r.bufferA A 2
      if c2 ≠ STX then popAndRetryA A (checkChecksumA A depth) r
      else
        let msgLength ← r.getMessageLengthA A
        if r.bufferSize < msgLength then return (r, false)
        else
          let e3 ← r.bufferA A (subT (recvBufferSize C) msgLength 3)
          let bad ← (if e3 ≠ ETX then (.ok true : Res Bool) else do
            let e1 ← r.bufferA A (subT (recvBufferSize C) msgLength 1)
            return decide (e1 ≠ EOT))
          if bad then popAndRetryA A (checkChecksumA A depth) r
          else
            let ck ← checksumLoopA A r checksumInit 0 (msgLength - 2)
            let fromMessage ← r.bufferA A (subT (recvBufferSize C) msgLength 2)
            if ck ≠ fromMessage then popAndRetryA A (checkChecksumA A depth) r
            else return (r, true)

namespace ERB
variable {C : Collection}

/-- `checkBufferForMessage` with an explicit bound on the recursion depth, dispatching to the
envelope of the collection. Models detail/types/EnvelopeReceiveBuffer.h:93-96 and
detail/bases/EnvelopeBase.h:70-74. -/
def checkDepthA (A : Asserts) (depth : Nat) (r : ERB C) : Res (ERB C × Bool) :=
  match C.envelope with
  | .basic => checkBasicA A depth r
  | .basicChecksum => checkChecksumA A depth r

/-- `checkBufferForMessage()`. The recursion budget is the number of buffered bytes plus one
(`check_depth_irrelevant` shows that a larger budget never changes the result). Models
detail/types/EnvelopeReceiveBuffer.h:93-96. -/
def checkBufferForMessageA (A : Asserts) (r : ERB C) : Res (ERB C × Bool) :=
  r.checkDepthA A (r.bufferSize + 1)

/-- `popMessage()`. Models detail/types/EnvelopeReceiveBuffer.h:106-110. The argument of the
assertion is a call with side effects; it is made only in builds with assertions. -/
def popMessageA (A : Asserts) (r : ERB C) : Res (ERB C) := do
  let r ← (if A.mode .pop ≠ .off then do
      let (r, ok) ← r.checkBufferForMessageA A
      assertAt A .pop ok
      return r
    else .ok r)
  let n ← r.getMessageLengthA A
  let r ← r.bufferPopFrontA A n
  return { r with currentMessageId := none }

end ERB

namespace Receiver
variable {C : Collection}

/-- `appendReceived(begin, end)`. Models Receiver.h:111-114. -/
def appendReceivedA (A : Asserts) (r : Receiver C) (xs : List Byte) : Res (Receiver C) := do
  let e ← r.recv.bufferAppendA A xs
  return { r with recv := e }

/-- `receiveFrom(adapter)`. Models Receiver.h:120-123. -/
def receiveFromA (A : Asserts) (r : Receiver C) (d : Device) : Res (Receiver C × Nat) := do
  let (e, n) ← r.recv.bufferFromFunctorRefA A d.receive d.numAvailable.toNat
  return ({ r with recv := e }, n)

end Receiver

namespace World
variable {C : Collection}

/-- `appendReceived` with the log of fed bytes. Models Receiver.h:111-114. -/
def appendA (A : Asserts) (w : World C) (xs : List Byte) : Res (World C) := do
  let r ← w.rx.appendReceivedA A xs
  return { w with rx := r, fed := w.fed ++ xs }

/-- Execute the calls a handler makes on its own receiver; `nested` is a nested
`processMessages()`. The flag tells whether an exception is propagating. The calls are members of
Receiver.h:86-155. -/
def runActsA (A : Asserts) (nested : World C → Res (World C × Outcome)) :
    World C → List Act → Res (World C × Bool)
  | w, [] => .ok (w, false)
  | w, .append xs :: as => do
    let w ← w.appendA A xs
    runActsA A nested w as
  | w, .setHandler h :: as => runActsA A nested { w with rx := w.rx.setHandler h } as
  | w, .clearHandler :: as => runActsA A nested { w with rx := w.rx.clearHandler } as
  | w, .process :: as => do
    let (w, o) ← nested w
    match o with
    | .threw => return (w, true)
    | .returned _ => runActsA A nested w as

/-- Log the functor call, and if it reaches user code let that run. Models
detail/operations/DeserializeToFusion.h:107-112 and ParameterHandlerBase.h:49-56. -/
def callHandlerA (A : Asserts) (user : UserCode) (nested : World C → Res (World C × Outcome))
    (w : World C) (i : Invocation) : Res (World C × Bool) := do
  let w := { w with trace := w.trace ++ [i] }
  match dispatch i with
  | none => return (w, false)
  | some _ =>
    let reaction := user w.userCalls w.rx.getBufferAvailableSpace
    let (w, thrown) ← runActsA A nested w reaction.acts
    return (w, thrown || reaction.throws)

/-- The loop of `processMessages`. Models Receiver.h:139-154. The fuel bounds loop iterations and
nesting. -/
def processLoopA (A : Asserts) (user : UserCode) : Nat → World C → Byte → Res (World C × Outcome)
  | 0, _, _ => .error .diverge
  | fuel + 1, w, msgCount => do
    let (e, found) ← w.rx.recv.checkBufferForMessageA A
    let w := { w with rx := { w.rx with recv := e } }
    if !found then return (w, .returned msgCount)
    else
      let id ← w.rx.recv.getCurrentMessageIdA A
      let w := { w with rx := { w.rx with lastMessageId := some id } }
      let i? ← w.rx.invoke id
      let (w, thrown) ← (match i? with
        | none => (.ok (w, false) : Res (World C × Bool))
        | some i => callHandlerA A user
            (fun w => if !w.rx.hasHandler then .ok (w, .returned 0)
                      else processLoopA A user fuel w 0) w i)
      if thrown then return (w, .threw)
      else
        let e ← w.rx.recv.popMessageA A
        processLoopA A user fuel { w with rx := { w.rx with recv := e } } (msgCount + 1)

/-- `processMessages()`. Models Receiver.h:134-155. -/
def processMessagesA (A : Asserts) (user : UserCode) (fuel : Nat) (w : World C) :
    Res (World C × Outcome) :=
  if !w.rx.hasHandler then .ok (w, .returned 0)
  else processLoopA A user fuel w 0

/-- One API call. Models Receiver.h:86-155. The bytes an adapter delivered are the first
`ret` of those it wrote. -/
def stepA (A : Asserts) (user : UserCode) (fuel : Nat) (w : World C) : Op → Res (World C × Obs)
  | .append xs => do
    let w ← w.appendA A xs
    return (w, .unit)
  | .receiveFrom avail rcv => do
    let limit := min avail.toNat w.rx.getBufferAvailableSpace
    let reply := rcv (UInt8.ofNat limit)
    let (r, n) ← w.rx.receiveFromA A { numAvailable := avail, receive := rcv }
    return ({ w with rx := r, fed := w.fed ++ reply.written.take reply.ret.toNat }, .count n)
  | .process => do
    let (w, o) ← w.processMessagesA A user fuel
    return (w, .processed o)
  | .setHandler h => .ok ({ w with rx := w.rx.setHandler h }, .unit)
  | .clearHandler => .ok ({ w with rx := w.rx.clearHandler }, .unit)
  | .copy => do
    let r ← w.rx.copyConstruct
    return ({ w with rx := r }, .unit)

/-- A history of API calls, with everything observed. Uses of Receiver.h:86-155. -/
def runA (A : Asserts) (user : UserCode) (fuel : Nat) : World C → List Op → Res (World C × List Obs)
  | w, [] => .ok (w, [])
  | w, op :: ops => do
    let (w, o) ← w.stepA A user fuel op
    let (w, os) ← runA A user fuel w ops
    return (w, o :: os)

end World
end TT
