import Verif.Model.Protocol

/-!
# Sending: transmitters, serializer, envelopes, `send`
-/

namespace TT

/-- The implementation methods a transmitter class provides to `TransmitterBase<Derived>`.
`output(byte)`, `output(ptr, len)` and `outputFinished()` forward to them one-to-one.
Models detail/bases/TransmitterBase.h:36-96. `σ` is the state of the transmitter object and of
whatever it writes to. -/
structure Tx (σ : Type) where
  writeByte : σ → Byte → Res σ
  write : σ → List Byte → Res σ
  writeFinished : σ → Res σ

/-- The fallback `TransmitterBase::write`: one `writeByte` per element, in order.
Models detail/bases/TransmitterBase.h:72-76. -/
def defaultWrite {σ : Type} (writeByte : σ → Byte → Res σ) : σ → List Byte → Res σ
  | s, [] => .ok s
  | s, b :: bs => do
    let s ← writeByte s b
    defaultWrite writeByte s bs

/-- The fallback `TransmitterBase::writeFinished`. Models detail/bases/TransmitterBase.h:79-80. -/
def defaultWriteFinished {σ : Type} (s : σ) : Res σ := .ok s

/-- `VectorBuffer`. Models transmitters/VectorBuffer.h:42-88; the state is the vector.
Simplification: `std::vector` growth always succeeds. -/
def vectorBuffer : Tx (List Byte) where
  writeByte s v := .ok (s ++ [v])
  write s data := .ok (s ++ data)
  writeFinished := defaultWriteFinished

/-- State of `BoostArrayBuffer<SIZE>`: the array and the write iterator (as an index).
Models transmitters/BoostArrayBuffer.h:76-79. -/
structure ArrayBuf (size : Nat) where
  buffer : List Byte
  it : Nat
deriving DecidableEq, Repr

/-- Constructor. Models transmitters/BoostArrayBuffer.h:42. -/
def ArrayBuf.new (size : Nat) : ArrayBuf size := { buffer := List.replicate size 0, it := 0 }

/-- `reset()`. Models transmitters/BoostArrayBuffer.h:72-74. -/
def ArrayBuf.reset {size : Nat} (a : ArrayBuf size) : ArrayBuf size := { a with it := 0 }

/-- The elements of `[begin(), end())`. Models transmitters/BoostArrayBuffer.h:59-70. -/
def ArrayBuf.range {size : Nat} (a : ArrayBuf size) : List Byte := a.buffer.take a.it

/-- `*it = v; ++it;`. Models transmitters/BoostArrayBuffer.h:44-47: no bounds check, so storing
through the past-the-end iterator is undefined. -/
def ArrayBuf.writeByte {size : Nat} (a : ArrayBuf size) (v : Byte) : Res (ArrayBuf size) :=
  if a.it < a.buffer.length then .ok { buffer := a.buffer.set a.it v, it := a.it + 1 }
  else .error .ub

/-- `it = std::copy(data, data + len, it)`. Models transmitters/BoostArrayBuffer.h:49-51. -/
def ArrayBuf.write {size : Nat} (a : ArrayBuf size) : List Byte → Res (ArrayBuf size)
  | [] => .ok a
  | v :: vs =>
    if a.it < a.buffer.length then
      ArrayBuf.write { buffer := a.buffer.set a.it v, it := a.it + 1 } vs
    else .error .ub

/-- `BoostArrayBuffer<SIZE>`. Models transmitters/BoostArrayBuffer.h:39-81. -/
def boostArrayBuffer (size : Nat) : Tx (ArrayBuf size) where
  writeByte := ArrayBuf.writeByte
  write := ArrayBuf.write
  writeFinished := defaultWriteFinished

/-- `AutosizedBoostArrayBuffer<BoundMessage>`: its capacity.
Models transmitters/AutosizedBoostArrayBuffer.h:42-43. -/
def autosizedCapacity (C : Collection) (m : MsgType) : Nat := sizeofBound C m

/-- `CollectionAutosizedBoostArrayBuffer<Collection>`: its capacity.
Models transmitters/AutosizedBoostArrayBuffer.h:47-50. -/
def collectionAutosizedCapacity (C : Collection) : Nat := maxMessageLength C

/-- `ChecksumComputer`: state `_ck`, 8-bit sum of all bytes; inherits the fallback `write`.
Models transmitters/ChecksumComputer.h:41-54. -/
def checksumComputer : Tx Byte where
  writeByte ck v := .ok (ck + v)
  write := defaultWrite (fun ck v => .ok (ck + v))
  writeFinished := defaultWriteFinished

/-- Initial `_ck`. Models transmitters/ChecksumComputer.h:43-45. -/
def checksumInit : Byte := 0

/-- `TransmitterComposition<First, Second>`: every output goes to the first, then to the second.
Models transmitters/TransmitterComposition.h:49-73. It does not forward `writeFinished`
(inherits the fallback). -/
def composition {σ τ : Type} (T : Tx σ) (U : Tx τ) : Tx (σ × τ) where
  writeByte s v := do
    let a ← T.writeByte s.1 v
    let b ← U.writeByte s.2 v
    return (a, b)
  write s data := do
    let a ← T.write s.1 data
    let b ← U.write s.2 data
    return (a, b)
  writeFinished := defaultWriteFinished

/-- State of `ArduinoI2C`: the internal `BoostArrayBuffer<255>` and the list of `TwoWire::write`
calls made so far (oldest first). Models transmitters/ArduinoI2C.h:45, 60-62. -/
structure I2CState where
  bufTx : ArrayBuf 255
  wire : List (List Byte)
deriving DecidableEq, Repr

/-- `ArduinoI2C`. Models transmitters/ArduinoI2C.h:47-58.
Simplification: `TwoWire::write(ptr, len)` is recorded as one transaction holding those bytes.
(As written the header cannot compile: its constructor is called `ArduinoSerial`, line 43.) -/
def arduinoI2C : Tx I2CState where
  writeByte s v := do
    let b ← s.bufTx.writeByte v
    return { s with bufTx := b }
  write s data := do
    let b ← s.bufTx.write data
    return { s with bufTx := b }
  writeFinished s := .ok { bufTx := s.bufTx.reset, wire := s.wire ++ [s.bufTx.range] }

/-- `VrpnSerial` / `ArduinoSerial` transmitters: each call is one write on the port; the state is
the list of port writes. Models transmitters/VrpnSerial.h:35-50 and transmitters/ArduinoSerial.h:36-50.
Simplification: the port accepts every byte; the code ignores the return value of the port. -/
def portTransmitter : Tx (List (List Byte)) where
  writeByte s v := .ok (s ++ [[v]])
  write s data := .ok (s ++ [data])
  writeFinished := defaultWriteFinished

/-- The same transmitters on a port that may take fewer bytes than it is given: call number `i` takes
the first `accept i` bytes. The state is the number of calls so far and the bytes taken so far.
`_port.write(data, len)` and `s.write(data, len)` report how many bytes were taken; the code discards
that result. Models transmitters/VrpnSerial.h:39-45 and transmitters/ArduinoSerial.h:40-46. -/
def lossyPort (accept : Nat → Nat) : Tx (Nat × List Byte) where
  writeByte s v := .ok (s.1 + 1, s.2 ++ [v].take (accept s.1))
  write s data := .ok (s.1 + 1, s.2 ++ data.take (accept s.1))
  writeFinished := defaultWriteFinished

/-- A field value: its type and its object representation (what `memcpy` copies). The contents passed to
`send`, Send.h:48-49, and to `buffer`, serializers/BitwiseCopySerialization.h:36-46. -/
structure Value where
  ty : FieldType
  bytes : List Byte
deriving DecidableEq, Repr

/-- `BitwiseCopySerializer::buffer`, selected by `SendContext::operator()`: a `uint8_t` goes out
with single-byte `output`, anything else as a `memcpy`'d array of `sizeof(T)` bytes.
Models serializers/BitwiseCopySerialization.h:34-46 and detail/bases/SerializerBase.h:56-73. -/
def bufferField {σ : Type} (T : Tx σ) (s : σ) (v : Value) : Res σ :=
  match v.ty, v.bytes with
  | .uint8, [b] => T.writeByte s b
  | _, bs => T.write s bs

/-- `SerializationPolicy::bufferTuple`: `fusion::for_each` over the contents.
Models detail/bases/SerializerBase.h:108-112 and detail/bases/EnvelopeBase.h:53-57. -/
def bufferTuple {σ : Type} (T : Tx σ) : σ → List Value → Res σ
  | s, [] => .ok s
  | s, v :: vs => do
    let s ← bufferField T s v
    bufferTuple T s vs

/-- `Basic::sendMessage`. Models envelopes/Basic.h:57-66. -/
def sendMessageBasic {σ : Type} (T : Tx σ) (s : σ) (contents : List Value) (msgId : Byte) :
    Res σ := do
  let s ← T.writeByte s SOH
  let s ← T.writeByte s msgId
  let s ← T.writeByte s STX
  let s ← bufferTuple T s contents
  let s ← T.writeByte s ETX
  T.writeByte s EOT

/-- `BasicChecksum::sendMessage`. Models envelopes/BasicChecksum.h:56-71. -/
def sendMessageChecksum {σ : Type} (T : Tx σ) (s : σ) (contents : List Value) (msgId : Byte) :
    Res σ := do
  let K := composition checksumComputer T
  let p := (checksumInit, s)
  let p ← K.writeByte p SOH
  let p ← K.writeByte p msgId
  let p ← K.writeByte p STX
  let p ← bufferTuple K p contents
  let p ← K.writeByte p ETX
  let s ← T.writeByte p.2 p.1
  T.writeByte s EOT

/-- `EnvelopeBase::sendMessage` dispatching to the derived envelope.
Models detail/bases/EnvelopeBase.h:65-68. -/
def sendMessage {σ : Type} (E : Envelope) (T : Tx σ) (s : σ) (contents : List Value)
    (msgId : Byte) : Res σ :=
  match E with
  | .basic => sendMessageBasic T s contents msgId
  | .basicChecksum => sendMessageChecksum T s contents msgId

/-- The static assertion of `send`: the contents' types are exactly the message's field types.
Models Send.h:54-60 (`equal`, or both empty). -/
def contentsMatch (m : MsgType) (contents : List Value) : Bool :=
  decide (contents.map (·.ty) = m.fields)

/-- `transmission::send<Collection, Message>(tx, contents)`. Models Send.h:48-66.
`none`: the call does not compile. -/
def send {σ : Type} (C : Collection) (m : MsgType) (T : Tx σ) (s : σ) (contents : List Value) :
    Option (Res σ) :=
  if C.compiles && contentsMatch m contents then
    match messageId C m with
    | none => none
    | some id => some (do
        let s ← sendMessage C.envelope T s contents id
        T.writeFinished s)
  else none

/-- The overload taking the fields as separate parameters: parameter `i` has type
`at_c<sequence_type, i>` and the arguments are collected with `fusion::make_list`.
Models detail/operations/SendOverloads_Generated.h:55-430 (arities 0 to 9); `args` are the
object representations of the parameters after the implicit conversion to the parameter types. -/
def sendOverload {σ : Type} (C : Collection) (m : MsgType) (T : Tx σ) (s : σ)
    (args : List (List Byte)) : Option (Res σ) :=
  if args.length = m.fields.length ∧ messageArity m ≤ 9 then
    send C m T s (List.zipWith Value.mk m.fields args)
  else none

end TT
