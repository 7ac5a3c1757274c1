import Verif.Model.Receive

/-!
# Envelopes written by users of the library

An envelope is a class derived from `EnvelopeBase` (detail/bases/EnvelopeBase.h:41-86) with
`overhead_size`, `data_offset` and a function `checkBufferForMessageImpl`, which works on the receive
buffer through the members of `EnvelopeReceiveBuffer` only. Here the function is any terminating program
over these members; buffer, receiver and collection are modelled again for such an envelope.

Simplifications: the program keeps no state of its own and does not throw; handlers return normally and do
not call the receiver; `bufferEmpty()` is `bufferSize() == 0` and `bufferFront()` is `buffer(0)`.
-/

namespace TT

/-- A terminating program over the members of `EnvelopeReceiveBuffer`, each continuing with the answer.
Models the interface in detail/types/EnvelopeReceiveBuffer.h:120-203. -/
inductive EnvCode where
  /-- `return found;` -/
  | done (found : Bool)
  /-- `bufferSize()` -/
  | size (k : Nat → EnvCode)
  /-- `buffer(i)` -/
  | byte (i : Nat) (k : Byte → EnvCode)
  /-- `buffer(i) = b`, through the reference that `buffer` returns -/
  | write (i : Nat) (b : Byte) (k : EnvCode)
  /-- `bufferPopFront(n)` -/
  | pop (n : Nat) (k : EnvCode)
  /-- `setCurrentMessageId(id)` -/
  | setId (id : Byte) (k : EnvCode)
  /-- `isCurrentMessageIdValid()` -/
  | hasId (k : Bool → EnvCode)
  /-- `getMessageLength()` -/
  | length (k : Nat → EnvCode)

/-- A message collection with an envelope written by the user. Models MessageCollection.h:48-54 and the
members every envelope has to have (detail/bases/EnvelopeBase.h:41-86). -/
structure Custom where
  messages : List MsgType
  overhead : Nat
  dataOffset : Nat
  code : EnvCode

/-- Data members of `EnvelopeReceiveBuffer`. Models detail/types/EnvelopeReceiveBuffer.h:205-208. -/
structure CBuf (cap : Nat) where
  currentMessageId : Option Byte
  buf : RB cap
deriving DecidableEq, Repr

namespace CBuf
variable {cap : Nat}

/-- `getCurrentMessageId()`. Models detail/types/EnvelopeReceiveBuffer.h:193-195. -/
def getCurrentMessageId (B : Build) (r : CBuf cap) : Res Byte := do
  assertMsg B r.currentMessageId.isSome
  match r.currentMessageId with
  | some id => .ok id
  | none => .error .ub

/-- `getMessageLength()`; `len` is the function of the message id.
Models detail/types/EnvelopeReceiveBuffer.h:200-203. -/
def getMessageLength (B : Build) (len : Byte → Res Nat) (r : CBuf cap) : Res Nat := do
  assertMsg B r.currentMessageId.isSome
  let id ← r.getCurrentMessageId B
  len id

/-- Run the envelope's program; `count` is the number of message types.
Models detail/types/EnvelopeReceiveBuffer.h:120-203. -/
def exec (B : Build) (count : Nat) (len : Byte → Res Nat) :
    EnvCode → CBuf cap → Res (CBuf cap × Bool)
  | .done found, r => .ok (r, found)
  | .size k, r => exec B count len (k r.buf.size) r
  | .byte i k, r => do
    let b ← r.buf.get B i
    exec B count len (k b) r
  | .write i b k, r => do
    let b ← r.buf.set B i b
    exec B count len k { r with buf := b }
  | .pop n k, r => do
    let (b, _) ← r.buf.popFront B n
    exec B count len k { r with buf := b }
  | .setId id k, r =>
    exec B count len k
      { r with currentMessageId := if id.toNat < count then some id else none }
  | .hasId k, r => exec B count len (k r.currentMessageId.isSome) r
  | .length k, r => do
    let n ← r.getMessageLength B len
    exec B count len (k n) r

end CBuf

namespace Custom

/-- `Sizeof<BoundMessageType<...>>`. Models detail/operations/Sizeof.h:48-60. -/
def sizeofBound (C : Custom) (m : MsgType) : Nat := C.overhead + sizeofSeq m.fields

/-- `MaxMessageLength`: the length of the longest message type.
Models detail/operations/MaxMessageLength.h:40-52. -/
def maxMessageLength (C : Custom) : Nat :=
  C.messages.foldl (fun n m => if n < C.sizeofBound m then C.sizeofBound m else n) 0

/-- `ComputeReceiveBufferSize`. Models detail/operations/ComputeReceiveBufferSize.h:37-43. -/
def recvBufferSize (C : Custom) : Nat := C.maxMessageLength * messageBufferSizeScale

/-- Runtime `getMessageLength(id)`. Models detail/operations/MessageLength.h:42-71. -/
def getMessageLength (C : Custom) (id : Byte) : Res Nat :=
  if !decide (id.toNat < C.messages.length) then .ok 0
  else applyAt C.messages id
    (fun m => .ok (trunc C.maxMessageLength (C.sizeofBound m))) (.error .ub)

/-- The buffer of a receiver for the collection. Models Receiver.h:60 and
detail/types/EnvelopeReceiveBuffer.h:43-47. -/
abbrev Buf (C : Custom) := CBuf C.recvBufferSize

/-- `checkBufferForMessage()`. Models detail/types/EnvelopeReceiveBuffer.h:93-96 and
detail/bases/EnvelopeBase.h:70-74. -/
def check (C : Custom) (B : Build) (r : C.Buf) : Res (C.Buf × Bool) :=
  r.exec B C.messages.length C.getMessageLength C.code

/-- `popMessage()`. Models detail/types/EnvelopeReceiveBuffer.h:106-110. -/
def popMessage (C : Custom) (B : Build) (r : C.Buf) : Res C.Buf := do
  let r ← (if B.debug then do
      let (r, ok) ← C.check B r
      assertMsg B ok
      return r
    else .ok r)
  let n ← r.getMessageLength B C.getMessageLength
  let (b, _) ← r.buf.popFront B n
  return { currentMessageId := none, buf := b }

/-- Data members of `Receiver`, and logs of the functor calls made and the bytes fed. Models
Receiver.h:184-196. -/
structure World (C : Custom) where
  recv : C.Buf
  handler : Option Handler
  lastMessageId : Option Byte
  trace : List Invocation
  fed : List Byte
deriving DecidableEq, Repr

/-- A fresh receiver. Models Receiver.h:80-82. -/
def World.new (C : Custom) : C.World :=
  { recv := { currentMessageId := none, buf := RB.new _ }, handler := none, lastMessageId := none,
    trace := [], fed := [] }

/-- `getBufferAvailableSpace()`. Models Receiver.h:105-107. -/
def World.space {C : Custom} (w : C.World) : Nat :=
  subT C.recvBufferSize w.recv.buf.maxSize w.recv.buf.size

/-- `(*_invoker)(id, _functorPointer, it)`. Models Receiver.h:146, 167-177 and
detail/operations/DeserializeAndInvoke.h:39-45. -/
def World.invoke {C : Custom} (w : C.World) (id : Byte) : Res (Option Invocation) :=
  match w.handler with
  | some h =>
    applyAt C.messages id
      (fun m => do
        let args ← deserialize w.recv.buf.contents (w.recv.buf.begin_ + C.dataOffset) m.fields []
        return some ⟨h, m, args⟩)
      (.ok none)
  | none => .error .ub

/-- The loop of `processMessages`. Models Receiver.h:139-154. -/
def World.processLoop {C : Custom} (B : Build) : Nat → C.World → Byte → Res (C.World × Byte)
  | 0, _, _ => .error .diverge
  | fuel + 1, w, msgCount => do
    let (e, found) ← C.check B w.recv
    let w := { w with recv := e }
    if !found then return (w, msgCount)
    else
      let id ← w.recv.getCurrentMessageId B
      let w := { w with lastMessageId := some id }
      let i? ← w.invoke id
      let w := { w with trace := w.trace ++ i?.toList }
      let e ← C.popMessage B w.recv
      processLoop B fuel { w with recv := e } (msgCount + 1)

/-- `processMessages()`. Models Receiver.h:134-155. -/
def World.processMessages {C : Custom} (B : Build) (fuel : Nat) (w : C.World) :
    Res (C.World × Byte) :=
  if w.handler.isNone then .ok (w, 0) else w.processLoop B fuel 0

/-- One call on the receiver. The functions are Receiver.h:86-155. -/
inductive COp where
  | append (xs : List Byte)
  | process
  | setHandler (h : Handler)
  | clearHandler

/-- One call on the receiver, with the count that `processMessages` returns. Models Receiver.h:86-155. -/
def World.step {C : Custom} (B : Build) (fuel : Nat) (w : C.World) : COp → Res (C.World × Option Byte)
  | .append xs => do
    let b ← w.recv.buf.pushBackRange B xs
    return ({ w with recv := { w.recv with buf := b }, fed := w.fed ++ xs }, none)
  | .process => do
    let (w, n) ← w.processMessages B fuel
    return (w, some n)
  | .setHandler h => .ok ({ w with handler := some h }, none)
  | .clearHandler => .ok ({ w with handler := none }, none)

/-- A history of calls. Uses of Receiver.h:86-155. -/
def World.run {C : Custom} (B : Build) (fuel : Nat) : C.World → List COp →
    Res (C.World × List (Option Byte))
  | w, [] => .ok (w, [])
  | w, op :: ops => do
    let (w, o) ← w.step B fuel op
    let (w, os) ← run B fuel w ops
    return (w, o :: os)

end Custom

/-! ### The shipped envelopes as such programs -/

/-- Loop that drops bytes until a start code is at the front. Models envelopes/Basic.h:71-79. -/
def EnvCode.skipTo : Nat → EnvCode → EnvCode
  | 0, k => k
  | fuel + 1, k => .size fun n =>
    if n = 0 then k
    else .byte 0 fun c => if c ≠ SOH then .pop 1 (skipTo fuel k) else k

/-- Checksum of the bytes at `i`, `i + 1`, ... (`n` of them). Models envelopes/BasicChecksum.h:126-130. -/
def EnvCode.sum (ck : Byte) (i : Nat) (k : Byte → EnvCode) : Nat → EnvCode
  | 0 => k ck
  | n + 1 => .byte i fun v => EnvCode.sum (ck + v) (i + 1) k n

/-- `checkBufferForMessage` of the two shipped envelopes. The number bounds the bytes in the buffer.
Models envelopes/Basic.h:68-123 and envelopes/BasicChecksum.h:73-147. -/
def EnvCode.shipped (E : Envelope) : Nat → EnvCode
  | 0 => .done false
  | depth + 1 =>
    .skipTo (depth + 1) <|
    .size fun n => if n < 2 then .done false else
    .byte 1 fun id => .setId id <| .hasId fun valid =>
    if !valid then .pop 1 (shipped E depth) else
    if n < 3 then .done false else
    .byte 2 fun c2 =>
    if c2 ≠ STX then .pop 1 (shipped E depth) else
    .length fun len =>
    if n < len then .done false else
    match E with
    | .basic =>
      .byte (len - 2) fun e2 => if e2 ≠ ETX then .pop 1 (shipped .basic depth) else
      .byte (len - 1) fun e1 => if e1 ≠ EOT then .pop 1 (shipped .basic depth) else .done true
    | .basicChecksum =>
      .byte (len - 3) fun e3 => if e3 ≠ ETX then .pop 1 (shipped .basicChecksum depth) else
      .byte (len - 1) fun e1 => if e1 ≠ EOT then .pop 1 (shipped .basicChecksum depth) else
      .sum 0 0 (fun ck => .byte (len - 2) fun c =>
        if ck ≠ c then .pop 1 (shipped .basicChecksum depth) else .done true) (len - 2)

/-- A collection with a shipped envelope, seen as one with a custom envelope. The envelopes are
envelopes/Basic.h:42-124 and envelopes/BasicChecksum.h:40-148. -/
def Collection.asCustom (C : Collection) : Custom where
  messages := C.messages
  overhead := C.envelope.overheadSize
  dataOffset := C.envelope.dataOffset
  code := .size fun n => .shipped C.envelope (n + 1)

end TT
