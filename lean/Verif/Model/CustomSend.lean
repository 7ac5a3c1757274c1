import Verif.Model.CustomEnvelope
import Verif.Model.Transmit

/-!
# The sending side of envelopes written by users of the library

`sendMessage` of an envelope is any terminating program that outputs to the transmitter it is given: bytes, blocks of
bytes and, through `base::bufferTuple`, the contents of the message. Like `BasicChecksum` it may put a transmitter of its
own in front with `TransmitterComposition`, which sees the outputs that go through the composition and computes something
of them that the program can use.

Simplification: one transmitter of its own (a composition of several is one transmitter); the program does not throw.
-/

namespace TT

/-- A terminating program that outputs a message; `watched` outputs go through the composition with the envelope's own
transmitter, whose state is of type `α`. Models the use of a transmitter in envelopes/Basic.h:57-66 and
envelopes/BasicChecksum.h:56-71. -/
inductive SendCode (α : Type) where
  | done
  /-- `output(byte)` -/
  | byte (watched : Bool) (b : Byte) (k : SendCode α)
  /-- `output(ptr, len)` -/
  | block (watched : Bool) (bs : List Byte) (k : SendCode α)
  /-- `base::bufferTuple(tx, contents)` -/
  | contents (watched : Bool) (k : SendCode α)
  /-- ask the envelope's own transmitter, like `checksum.checksum()` -/
  | ask (k : α → SendCode α)

/-- The sending side of an envelope: its own transmitter as it is constructed, and `sendMessage`, which is given the id
and the contents. Models envelopes/BasicChecksum.h:56-63. -/
structure SendSide where
  α : Type
  own : Tx α
  initial : α
  code : Byte → List Value → SendCode α

/-- An output to the transmitter given, past the envelope's own. Models envelopes/BasicChecksum.h:69-70. -/
def SendCode.direct {α σ : Type} (f : σ → Res σ) (p : α × σ) : Res (α × σ) :=
  match f p.2 with
  | .ok s => .ok (p.1, s)
  | .error e => .error e

/-- Run `sendMessage`; the state is that of the envelope's own transmitter and that of the transmitter given. Models
envelopes/BasicChecksum.h:56-71, with transmitters/TransmitterComposition.h:49-73 and detail/bases/EnvelopeBase.h:53-57. -/
def SendCode.exec {α σ : Type} (K : Tx α) (T : Tx σ) (contents : List Value) :
    SendCode α → α × σ → Res (α × σ)
  | .done, p => .ok p
  | .byte watched b k, p => do
    let p ← if watched then (composition K T).writeByte p b
      else direct (T.writeByte · b) p
    exec K T contents k p
  | .block watched bs k, p => do
    let p ← if watched then (composition K T).write p bs
      else direct (T.write · bs) p
    exec K T contents k p
  | .contents watched k, p => do
    let p ← if watched then bufferTuple (composition K T) p contents
      else direct (bufferTuple T · contents) p
    exec K T contents k p
  | .ask k, p => exec K T contents (k p.1) p

/-- `send<Collection, Message>(tx, contents)` for a collection with such an envelope. Models Send.h:48-66 with
detail/bases/EnvelopeBase.h:65-68; the static assertions are those of `send` in `Verif.Model.Transmit`.
`none`: the call does not compile. -/
def Custom.send {σ : Type} (C : Custom) (S : SendSide) (m : MsgType) (T : Tx σ) (s : σ) (contents : List Value) :
    Option (Res σ) :=
  if (decide (C.messages ≠ []) && decide (C.messages.length ≤ 255)) && contentsMatch m contents then
    match (findIndex C.messages m).map UInt8.ofNat with
    | none => none
    | some id => some (do
        let p ← (S.code id contents).exec S.own T contents (S.initial, s)
        T.writeFinished p.2)
  else none

/-- A program: several calls of `send`, one after the other. Uses of Send.h:48-66. -/
def Custom.sendAll {σ : Type} (C : Custom) (S : SendSide) (T : Tx σ) : σ → List (MsgType × List Value) → Option (Res σ)
  | s, [] => some (.ok s)
  | s, r :: rs =>
    match C.send S r.1 T s r.2 with
    | none => none
    | some (.error f) => some (.error f)
    | some (.ok s') => C.sendAll S T s' rs

/-- The sending sides of the shipped envelopes. Models envelopes/Basic.h:57-66 and envelopes/BasicChecksum.h:56-71. -/
def Envelope.asSend (E : Envelope) : SendSide where
  α := Byte
  own := checksumComputer
  initial := checksumInit
  code := fun id _ => match E with
    | .basic => .byte false SOH <| .byte false id <| .byte false STX <| .contents false <| .byte false ETX <|
        .byte false EOT .done
    | .basicChecksum => .byte true SOH <| .byte true id <| .byte true STX <| .contents true <| .byte true ETX <|
        .ask fun ck => .byte false ck <| .byte false EOT .done

end TT
