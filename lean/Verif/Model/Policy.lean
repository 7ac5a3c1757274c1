import Verif.Model.Receive

/-!
# Other serialization policies

`SerializationPolicy<Serializer, Deserializer>` (detail/bases/SerializerBase.h) is a template: the envelopes
of the library use `BitwiseCopy`, an envelope written by a user may use another one. This file has the
functions of `Verif.Model.Transmit` and `Verif.Model.Receive` that depend on the policy once more, with the
policy as a parameter. C78 is about them; C78_same shows that with `bitwiseCopy` they are the functions of
the model.
-/

namespace TT

/-- One call a serializer makes on the transmitter: `tx.output(byte)` or `tx.output(ptr, len)`. Models
detail/bases/TransmitterBase.h:48-56. -/
inductive Output where
  | byte (b : Byte)
  | block (bs : List Byte)
deriving DecidableEq, Repr

/-- The call. Models detail/bases/TransmitterBase.h:48-56. -/
def Output.run {σ : Type} (T : Tx σ) (s : σ) : Output → Res σ
  | .byte b => T.writeByte s b
  | .block bs => T.write s bs

/-- Several calls. Models detail/bases/TransmitterBase.h:48-56, several times. -/
def outputs {σ : Type} (T : Tx σ) : σ → List Output → Res σ
  | s, [] => .ok s
  | s, o :: os => do
    let s ← o.run T s
    outputs T s os

/-- A serialization policy. `buffer prev v`: what the serializer outputs for the field `v` when it has
buffered the fields `prev` of the same message before. (A serializer derived from `StatefulSerializer_tag`
is default-constructed for each tuple, so its state is a function of the earlier fields; one derived from
`StatelessSerializer_tag` ignores them.) `unbuffer contents it f`: value of a field of type `f` read at
index `it` of the receive buffer's array, and the advanced iterator (`Unbuffer<T>::apply`, always static).
Simplification: a serializer does not throw and does not read from the transmitter.
Models detail/bases/SerializerBase.h:38-119. -/
structure Policy where
  buffer : List Value → Value → List Output
  unbuffer : List Byte → Nat → FieldType → Res (List Byte × Nat)

/-- `serializers::BitwiseCopy`. Models serializers/BitwiseCopySerialization.h:34-73. -/
def bitwiseCopy : Policy where
  buffer _ v := match v.ty, v.bytes with
    | .uint8, [b] => [.byte b]
    | _, bs => [.block bs]
  unbuffer := unbuffer

namespace Policy

/-- As `bufferTuple`. Models detail/bases/SerializerBase.h:108-112 and detail/bases/EnvelopeBase.h:53-57. -/
def bufferTuple {σ : Type} (P : Policy) (T : Tx σ) (prev : List Value) : σ → List Value → Res σ
  | s, [] => .ok s
  | s, v :: vs => do
    let s ← outputs T s (P.buffer prev v)
    P.bufferTuple T (prev ++ [v]) s vs

/-- As `sendMessageBasic`. Models envelopes/Basic.h:57-66. -/
def sendMessageBasic {σ : Type} (P : Policy) (T : Tx σ) (s : σ) (contents : List Value)
    (msgId : Byte) : Res σ := do
  let s ← T.writeByte s SOH
  let s ← T.writeByte s msgId
  let s ← T.writeByte s STX
  let s ← P.bufferTuple T [] s contents
  let s ← T.writeByte s ETX
  T.writeByte s EOT

/-- As `sendMessageChecksum`. Models envelopes/BasicChecksum.h:56-71. -/
def sendMessageChecksum {σ : Type} (P : Policy) (T : Tx σ) (s : σ) (contents : List Value)
    (msgId : Byte) : Res σ := do
  let K := composition checksumComputer T
  let p := (checksumInit, s)
  let p ← K.writeByte p SOH
  let p ← K.writeByte p msgId
  let p ← K.writeByte p STX
  let p ← P.bufferTuple K [] p contents
  let p ← K.writeByte p ETX
  let s ← T.writeByte p.2 p.1
  T.writeByte s EOT

/-- As `sendMessage`. Models detail/bases/EnvelopeBase.h:65-68. -/
def sendMessage {σ : Type} (P : Policy) (E : Envelope) (T : Tx σ) (s : σ) (contents : List Value)
    (msgId : Byte) : Res σ :=
  match E with
  | .basic => P.sendMessageBasic T s contents msgId
  | .basicChecksum => P.sendMessageChecksum T s contents msgId

/-- As `send`. Models Send.h:48-66. -/
def send {σ : Type} (P : Policy) (C : Collection) (m : MsgType) (T : Tx σ) (s : σ)
    (contents : List Value) : Option (Res σ) :=
  if C.compiles && contentsMatch m contents then
    match messageId C m with
    | none => none
    | some id => some (do
        let s ← P.sendMessage C.envelope T s contents id
        T.writeFinished s)
  else none

/-- As `deserialize`. Models detail/operations/DeserializeToFusion.h:64-94 and
detail/bases/SerializerBase.h:114-117. -/
def deserialize (P : Policy) (contents : List Byte) : Nat → List FieldType → List (List Byte) →
    Res (List (List Byte))
  | _, [], acc => .ok acc
  | it, f :: fs, acc => do
    let (v, it) ← P.unbuffer contents it f
    P.deserialize contents it fs (acc ++ [v])

variable {C : Collection}

/-- As `Receiver.invoke`. Models Receiver.h:146, 167-177, detail/operations/DeserializeAndInvoke.h:39-45. -/
def invoke (P : Policy) (r : Receiver C) (id : Byte) : Res (Option Invocation) :=
  match r.invoker, r.functorPointer with
  | some k, some o =>
    applyAt C.messages id
      (fun m => do
        let args ← P.deserialize r.recv.buf.contents r.recv.getDataIterator m.fields []
        return some ⟨⟨k, o⟩, m, args⟩)
      (.ok none)
  | _, _ => .error .ub

/-- As `World.processLoop`. Models Receiver.h:139-154. -/
def processLoop (P : Policy) (B : Build) (user : UserCode) :
    Nat → World C → Byte → Res (World C × Outcome)
  | 0, _, _ => .error .diverge
  | fuel + 1, w, msgCount => do
    let (e, found) ← w.rx.recv.checkBufferForMessage B
    let w := { w with rx := { w.rx with recv := e } }
    if !found then return (w, .returned msgCount)
    else
      let id ← w.rx.recv.getCurrentMessageId B
      let w := { w with rx := { w.rx with lastMessageId := some id } }
      let i? ← P.invoke w.rx id
      let (w, thrown) ← (match i? with
        | none => (.ok (w, false) : Res (World C × Bool))
        | some i => World.callHandler B user
            (fun w => if !w.rx.hasHandler then .ok (w, .returned 0)
                      else P.processLoop B user fuel w 0) w i)
      if thrown then return (w, .threw)
      else
        let e ← w.rx.recv.popMessage B
        P.processLoop B user fuel { w with rx := { w.rx with recv := e } } (msgCount + 1)

/-- As `World.processMessages`. Models Receiver.h:134-155. -/
def processMessages (P : Policy) (B : Build) (user : UserCode) (fuel : Nat) (w : World C) :
    Res (World C × Outcome) :=
  if !w.rx.hasHandler then .ok (w, .returned 0)
  else P.processLoop B user fuel w 0

/-- As `World.step`: only `processMessages` depends on the policy. Models Receiver.h:86-155. -/
def step (P : Policy) (B : Build) (user : UserCode) (fuel : Nat) (w : World C) :
    Op → Res (World C × Obs)
  | .process => do
    let (w, o) ← P.processMessages B user fuel w
    return (w, .processed o)
  | op => w.step B user fuel op

/-- As `World.run`. Uses of Receiver.h:86-155. -/
def run (P : Policy) (B : Build) (user : UserCode) (fuel : Nat) :
    World C → List Op → Res (World C × List Obs)
  | w, [] => .ok (w, [])
  | w, op :: ops => do
    let (w, o) ← P.step B user fuel w op
    let (w, os) ← P.run B user fuel w ops
    return (w, o :: os)

end Policy
end TT
