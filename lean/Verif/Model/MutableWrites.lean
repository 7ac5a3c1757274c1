import Verif.Model.Transmit

/-!
# Transmitters that change the array they are given

`TransmitterBase::output(uint8_t * data, std::size_t len)` hands on a pointer to bytes that are not constant, so a transmitter
may overwrite them, for instance to swap, mask or encrypt them in place. `Verif.Model.Transmit` has transmitters that do not.
Here the functions on the way from `send` to the transmitters are modelled again with arrays that change.

Simplification: a transmitter that writes outside the array is not considered; only the length of the array is passed on.
-/

namespace TT

/-- The implementation methods of a transmitter; `write` also says what the array holds afterwards.
Models detail/bases/TransmitterBase.h:36-96. -/
structure MutTx (σ : Type) where
  writeByte : σ → Byte → Res σ
  write : σ → List Byte → Res (σ × List Byte)
  writeFinished : σ → Res σ

/-- A transmitter that does not change arrays, such as all those of the library (except for a composition of others).
Models the use of `data` in transmitters/VectorBuffer.h:51-53, transmitters/BoostArrayBuffer.h:49-51,
detail/bases/TransmitterBase.h:72-76, transmitters/VrpnSerial.h:39-45 and transmitters/ArduinoSerial.h:40-46. -/
def MutTx.of {σ : Type} (T : Tx σ) : MutTx σ where
  writeByte := T.writeByte
  write s data := do
    let s ← T.write s data
    return (s, data)
  writeFinished := T.writeFinished

/-- `TransmitterComposition<First, Second>`: both are given the same array, one after the other; a single byte is passed by value.
Models transmitters/TransmitterComposition.h:59-69. -/
def mutComposition {σ τ : Type} (T : MutTx σ) (U : MutTx τ) : MutTx (σ × τ) where
  writeByte s v := do
    let a ← T.writeByte s.1 v
    let b ← U.writeByte s.2 v
    return (a, b)
  write s data := do
    let (a, data) ← T.write s.1 data
    let (b, data) ← U.write s.2 data
    return ((a, b), data)
  writeFinished := defaultWriteFinished

/-- `BitwiseCopySerializer::buffer`: the array is a local copy of the value. The second result is the caller's value afterwards.
Models serializers/BitwiseCopySerialization.h:34-46. -/
def mutBufferField {σ : Type} (T : MutTx σ) (s : σ) (v : Value) : Res (σ × Value) :=
  match v.ty, v.bytes with
  | .uint8, [b] => do
    let s ← T.writeByte s b
    return (s, v)
  | _, bs => do
    let (s, _) ← T.write s bs
    return (s, v)

/-- `bufferTuple`. Models detail/bases/SerializerBase.h:108-112. -/
def mutBufferTuple {σ : Type} (T : MutTx σ) : σ → List Value → Res (σ × List Value)
  | s, [] => .ok (s, [])
  | s, v :: vs => do
    let (s, v) ← mutBufferField T s v
    let (s, vs) ← mutBufferTuple T s vs
    return (s, v :: vs)

/-- `Basic::sendMessage`. Models envelopes/Basic.h:57-66. -/
def mutSendMessageBasic {σ : Type} (T : MutTx σ) (s : σ) (contents : List Value) (msgId : Byte) : Res (σ × List Value) := do
  let s ← T.writeByte s SOH
  let s ← T.writeByte s msgId
  let s ← T.writeByte s STX
  let (s, contents) ← mutBufferTuple T s contents
  let s ← T.writeByte s ETX
  let s ← T.writeByte s EOT
  return (s, contents)

/-- `BasicChecksum::sendMessage`: the checksum computer comes first. Models envelopes/BasicChecksum.h:56-71. -/
def mutSendMessageChecksum {σ : Type} (T : MutTx σ) (s : σ) (contents : List Value) (msgId : Byte) :
    Res (σ × List Value) := do
  let K := mutComposition (MutTx.of checksumComputer) T
  let p := (checksumInit, s)
  let p ← K.writeByte p SOH
  let p ← K.writeByte p msgId
  let p ← K.writeByte p STX
  let (p, contents) ← mutBufferTuple K p contents
  let p ← K.writeByte p ETX
  let s ← T.writeByte p.2 p.1
  let s ← T.writeByte s EOT
  return (s, contents)

/-- `EnvelopeBase::sendMessage`. Models detail/bases/EnvelopeBase.h:65-68. -/
def mutSendMessage {σ : Type} (E : Envelope) (T : MutTx σ) (s : σ) (contents : List Value) (msgId : Byte) :
    Res (σ × List Value) :=
  match E with
  | .basic => mutSendMessageBasic T s contents msgId
  | .basicChecksum => mutSendMessageChecksum T s contents msgId

/-- `send<Collection, Message>(tx, contents)`: the transmitter and the contents afterwards. Models Send.h:48-66. -/
def mutSend {σ : Type} (C : Collection) (m : MsgType) (T : MutTx σ) (s : σ) (contents : List Value) :
    Option (Res (σ × List Value)) :=
  if C.compiles && contentsMatch m contents then
    match messageId C m with
    | none => none
    | some id => some (do
        let (s, contents) ← mutSendMessage C.envelope T s contents id
        let s ← T.writeFinished s
        return (s, contents))
  else none

end TT
