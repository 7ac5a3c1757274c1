import Verif.Model.Receive

/-!
# Programs that use an `EnvelopeReceiveBuffer` themselves, without a `Receiver`

The tests of the library do it (tests/EnvelopeReceiveBuffer.cpp, tests/RoundtripCommon.h): the program asks
for messages instead of being called. Any sequence of the public calls of
detail/types/EnvelopeReceiveBuffer.h:66-110 and of the queries in 120-127, 182-203 is possible.

Simplification: the calls meant for envelopes (`bufferPopFront`, `buffer(i)`, `setCurrentMessageId`) are not made
by the program.
-/

namespace TT

/-- A call on the object. Models the members in detail/types/EnvelopeReceiveBuffer.h:66-110, 120-127, 159-162,
182-203; `deserialize` is the call that Receiver.h:146, 167-177 makes when a message has been found. -/
inductive ECall where
  | append (xs : List Byte)
  | appendOne (x : Byte)
  | fromFunctor (f : Byte → RB.DeviceReply) (n : Nat)
  | check
  | pop
  | getCurrentMessageId
  | getMessageLength
  | deserialize
  | size
  | empty
  | availableSpace
  /-- go on with a copy of the object -/
  | copy

/-- What a call returned. The results of detail/types/EnvelopeReceiveBuffer.h:66-203. -/
inductive EObs where
  | unit
  | found (b : Bool)
  | id (i : Byte)
  | number (n : Nat)
  | bool (b : Bool)
  | contents (c : Option (MsgType × List (List Byte)))
deriving DecidableEq, Repr

namespace ERB
variable {C : Collection}

/-- One call. Models detail/types/EnvelopeReceiveBuffer.h:66-203 and, for `deserialize`,
detail/operations/DeserializeAndInvoke.h:39-45 with a functor that keeps what it is called with. Copying is
member-wise (the class declares no copy operations), the buffer through util/ReceiveBuffer.h:81-86. -/
def call (B : Build) (r : ERB C) : ECall → Res (ERB C × EObs)
  | .append xs => do
    let r ← r.bufferAppend B xs
    return (r, .unit)
  | .appendOne x => do
    let r ← r.bufferAppendOne B x
    return (r, .unit)
  | .fromFunctor f n => do
    let (r, k) ← r.bufferFromFunctorRef B f n
    return (r, .number k)
  | .check => do
    let (r, b) ← r.checkBufferForMessage B
    return (r, .found b)
  | .pop => do
    let r ← r.popMessage B
    return (r, .unit)
  | .getCurrentMessageId => do
    let id ← r.getCurrentMessageId B
    return (r, .id id)
  | .getMessageLength => do
    let n ← r.getMessageLength B
    return (r, .number n)
  | .deserialize => do
    let id ← r.getCurrentMessageId B
    let c ← applyAt C.messages id
      (fun m => do
        let args ← TT.deserialize r.buf.contents r.getDataIterator m.fields []
        return some (m, args))
      (.ok none)
    return (r, .contents c)
  | .size => .ok (r, .number r.bufferSize)
  | .empty => .ok (r, .bool r.bufferEmpty)
  | .availableSpace => .ok (r, .number r.bufferAvailableSpace)
  | .copy => do
    let b ← r.buf.copyConstruct
    return ({ currentMessageId := r.currentMessageId, buf := b }, .unit)

/-- The calls one after the other. Uses of detail/types/EnvelopeReceiveBuffer.h:66-203. -/
def drive (B : Build) : ERB C → List ECall → Res (ERB C × List EObs)
  | r, [] => .ok (r, [])
  | r, c :: cs => do
    let (r, o) ← r.call B c
    let (r, os) ← drive B r cs
    return (r, o :: os)

end ERB
end TT
