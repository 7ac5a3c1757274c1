import Verif.Spec.Stream
import Verif.Model.Transmit

/-!
# Specification of sending

From the model only the data types `Value`, `Tx` (the transmitter interface) are used.
-/

namespace TT.Spec

/-- One call on a transmitter: `output(byte)`, `output(ptr, len)` or `outputFinished()`. -/
inductive Out where
  | byte (b : Byte)
  | block (bs : List Byte)
  | finished
deriving DecidableEq, Repr

/-- The bytes of one output. -/
def Out.bytes : Out → List Byte
  | .byte b => [b]
  | .block bs => bs
  | .finished => []

/-- All bytes of a script. -/
def outBytes (os : List Out) : List Byte := (os.map Out.bytes).flatten

/-- Run one output on a transmitter. -/
def Out.on {σ : Type} (T : Tx σ) (s : σ) : Out → Res σ
  | .byte b => T.writeByte s b
  | .block bs => T.write s bs
  | .finished => T.writeFinished s

/-- Run a script on a transmitter. -/
def feed {σ : Type} (T : Tx σ) : σ → List Out → Res σ
  | s, [] => .ok s
  | s, o :: os => match o.on T s with
    | .ok s' => feed T s' os
    | .error f => .error f

/-- How one field goes out. -/
def outField (v : Value) : Out :=
  match v.ty, v.bytes with
  | .uint8, [b] => .byte b
  | _, bs => .block bs

/-- A value whose object representation has the size of its type. -/
def Value.Fits (v : Value) : Prop := v.bytes.length = fieldSize v.ty

/-- The payload of a message: the object representations one after the other. -/
def payloadOf (vs : List Value) : List Byte := (vs.map (·.bytes)).flatten

/-- Everything `send` outputs for a message with id `id` and contents `vs`. -/
def script (E : Envelope) (id : Byte) (vs : List Value) : List Out :=
  [.byte 0x01, .byte id, .byte 0x02] ++ vs.map outField ++
    (match E with
      | .basic => [.byte 0x03, .byte 0x04]
      | .basicChecksum =>
        [.byte 0x03, .byte (byteSum ([0x01, id, 0x02] ++ payloadOf vs ++ [0x03])), .byte 0x04]) ++
    [.finished]

/-- A transmitter that appends to a byte log exactly what is output to it and cannot fail. -/
structure Faithful {σ : Type} (T : Tx σ) (log : σ → List Byte) : Prop where
  byte : ∀ s b, ∃ s', T.writeByte s b = .ok s' ∧ log s' = log s ++ [b]
  block : ∀ s bs, ∃ s', T.write s bs = .ok s' ∧ log s' = log s ++ bs
  finished : ∀ s, ∃ s', T.writeFinished s = .ok s' ∧ log s' = log s

/-- The position of a message type in a collection. -/
def idOf (C : Collection) (t : MsgType) (id : Byte) : Prop :=
  C.messages[id.toNat]? = some t ∧ ∀ j < id.toNat, C.messages[j]? ≠ some t

/-- A call of `send` that compiles: at least one and at most 255 message types, the type is one of
them, and the contents have exactly its field types. -/
def Sendable (C : Collection) (t : MsgType) (vs : List Value) : Prop :=
  C.messages.length ≤ 255 ∧ t ∈ C.messages ∧ vs.map (·.ty) = t.fields

/-- The bytes one compiling `send` puts on the wire: the frame with the type's position as id. -/
def wire (C : Collection) (t : MsgType) (vs : List Value) : List Byte :=
  frame C.envelope ⟨UInt8.ofNat (C.messages.idxOf t), payloadOf vs⟩

end TT.Spec
