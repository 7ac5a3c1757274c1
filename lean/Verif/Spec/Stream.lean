import Verif.Model.Protocol

/-!
# Specification of the wire format and of stream decoding

Stated with lists only; it uses from the model just the data types `Collection`, `MsgType`,
`FieldType`, `Envelope`, not the modelled functions.
-/

namespace TT.Spec

/-- Size in bytes of one field. -/
def fieldSize : FieldType → Nat
  | .uint8 => 1
  | .pod _ n => n

/-- Payload size of a message type: the field sizes added up. -/
def payloadSize (t : MsgType) : Nat := (t.fields.map fieldSize).sum

/-- Bytes added by an envelope. -/
def overhead : Envelope → Nat
  | .basic => 5
  | .basicChecksum => 6

/-- Sum of bytes modulo 256. -/
def byteSum : List Byte → Byte
  | [] => 0
  | b :: bs => b + byteSum bs

/-- A message as it exists on the wire: id and payload bytes. -/
structure Msg where
  id : Byte
  payload : List Byte
deriving DecidableEq, Repr

/-- The message type with a given id. -/
def typeOf (C : Collection) (id : Byte) : Option MsgType := C.messages[id.toNat]?

/-- `m` is a message of the collection: its id is valid and its payload has the type's size. -/
def IsMsg (C : Collection) (m : Msg) : Prop :=
  ∃ t, typeOf C m.id = some t ∧ m.payload.length = payloadSize t

/-- The bytes of a message on the wire. -/
def frame (E : Envelope) (m : Msg) : List Byte :=
  match E with
  | .basic => [0x01, m.id, 0x02] ++ m.payload ++ [0x03, 0x04]
  | .basicChecksum =>
    [0x01, m.id, 0x02] ++ m.payload ++ [0x03] ++
      [byteSum ([0x01, m.id, 0x02] ++ m.payload ++ [0x03]), 0x04]

/-- The bytes of several messages. -/
def frames (E : Envelope) (ms : List Msg) : List Byte := (ms.map (frame E)).flatten

/-- Total length of the message with a given id, if the id is valid. -/
def announced (C : Collection) (id : Byte) : Option Nat :=
  (typeOf C id).map fun t => overhead C.envelope + payloadSize t

/-- `r` may still become a message: start code, then (if present) a valid id, then (if present)
STX, and fewer bytes than announced. -/
def Waiting (C : Collection) (r : List Byte) : Prop :=
  r = [0x01] ∨
  (∃ id, typeOf C id ≠ none ∧ r = [0x01, id]) ∨
  (∃ id rest n, announced C id = some n ∧ r = 0x01 :: id :: 0x02 :: rest ∧ r.length < n)

/-- Some message starts at the beginning of `s`. -/
def Starts (C : Collection) (s : List Byte) : Prop :=
  ∃ m t, IsMsg C m ∧ s = frame C.envelope m ++ t

/-- `Run C s ms r`: a left-to-right scan of `s` may take the messages `ms`, leaving `r`.
A message is taken where one starts; one byte is skipped where neither a message starts nor the
rest may still become one. -/
inductive Run (C : Collection) : List Byte → List Msg → List Byte → Prop where
  | refl (s : List Byte) : Run C s [] s
  | take {m : Msg} {s r : List Byte} {ms : List Msg} :
      IsMsg C m → Run C s ms r → Run C (frame C.envelope m ++ s) (m :: ms) r
  | skip {b : Byte} {s r : List Byte} {ms : List Msg} :
      ¬ Starts C (b :: s) → ¬ Waiting C (b :: s) → Run C s ms r → Run C (b :: s) ms r

/-- The scan is stuck: nothing left, or waiting for more. -/
def Final (C : Collection) (r : List Byte) : Prop := r = [] ∨ Waiting C r

/-- `ms` is the complete decoding of the stream `s`, with `r` left over. -/
def Decodes (C : Collection) (s : List Byte) (ms : List Msg) (r : List Byte) : Prop :=
  Run C s ms r ∧ Final C r

/-- Cut a payload into fields. -/
def splitFields : List FieldType → List Byte → List (List Byte)
  | [], _ => []
  | f :: fs, p => p.take (fieldSize f) :: splitFields fs (p.drop (fieldSize f))

end TT.Spec
