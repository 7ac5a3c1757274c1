import Verif.Model.Receive

/-!
# Field types that do not use all their bit patterns

`BitwiseCopyDeserializer` copies the bytes received into an object and returns it by value. For a `bool`, an enumeration or a
pointer, not every bit pattern is the representation of a value; returning an object with another pattern reads it, and is
undefined. `Verif.Model.Receive` has all patterns valid. Here the platform says which ones are, and the functions of
`Receiver` on the way to the deserializer are modelled again with this.

Simplification: patterns are valid or not for each field type, whatever else is in the message.
-/

namespace TT

/-- Which object representations of a type are those of a value. The platform decides; the types are those of
serializers/BitwiseCopySerialization.h:48-59. -/
abbrev Patterns := Nat → List Byte → Bool

/-- Whether the bytes are a value of the field's type; all are for `uint8_t`. Models what the copies in
serializers/BitwiseCopySerialization.h:52-57 and 64-67 need. -/
def Patterns.ok (V : Patterns) : FieldType → List Byte → Bool
  | .uint8, _ => true
  | .pod ty _, bs => V ty bs

/-- `BitwiseCopyDeserializer::Unbuffer<T>::apply(it)`. Models serializers/BitwiseCopySerialization.h:48-68. -/
def unbufferV (V : Patterns) (contents : List Byte) (it : Nat) (f : FieldType) : Res (List Byte × Nat) := do
  let (v, it) ← unbuffer contents it f
  if V.ok f v then return (v, it) else .error .ub

/-- `Deserialize<...>::apply`. Models detail/operations/DeserializeToFusion.h:64-94. -/
def deserializeV (V : Patterns) (contents : List Byte) : Nat → List FieldType → List (List Byte) → Res (List (List Byte))
  | _, [], acc => .ok acc
  | it, f :: fs, acc => do
    let (v, it) ← unbufferV V contents it f
    deserializeV V contents it fs (acc ++ [v])

/-- `(*_invoker)(id, _functorPointer, it)`. Models Receiver.h:146, 167-177, detail/operations/DeserializeAndInvoke.h:39-45 and
detail/operations/DeserializeToFusion.h:96-126. -/
def Receiver.invokeV {C : Collection} (V : Patterns) (r : Receiver C) (id : Byte) : Res (Option Invocation) :=
  match r.invoker, r.functorPointer with
  | some k, some o =>
    applyAt C.messages id
      (fun m => do
        let args ← deserializeV V r.recv.buf.contents r.recv.getDataIterator m.fields []
        return some ⟨⟨k, o⟩, m, args⟩)
      (.ok none)
  | _, _ => .error .ub

namespace World
variable {C : Collection}

/-- The loop of `processMessages`. Models Receiver.h:139-154. -/
def processLoopV (V : Patterns) (B : Build) (user : UserCode) : Nat → World C → Byte → Res (World C × Outcome)
  | 0, _, _ => .error .diverge
  | fuel + 1, w, msgCount => do
    let (e, found) ← w.rx.recv.checkBufferForMessage B
    let w := { w with rx := { w.rx with recv := e } }
    if !found then return (w, .returned msgCount)
    else
      let id ← w.rx.recv.getCurrentMessageId B
      let w := { w with rx := { w.rx with lastMessageId := some id } }
      let i? ← w.rx.invokeV V id
      let (w, thrown) ← (match i? with
        | none => (.ok (w, false) : Res (World C × Bool))
        | some i => callHandler B user
            (fun w => if !w.rx.hasHandler then .ok (w, .returned 0)
                      else processLoopV V B user fuel w 0) w i)
      if thrown then return (w, .threw)
      else
        let e ← w.rx.recv.popMessage B
        processLoopV V B user fuel { w with rx := { w.rx with recv := e } } (msgCount + 1)

/-- `processMessages()`. Models Receiver.h:134-155. -/
def processMessagesV (V : Patterns) (B : Build) (user : UserCode) (fuel : Nat) (w : World C) : Res (World C × Outcome) :=
  if !w.rx.hasHandler then .ok (w, .returned 0)
  else processLoopV V B user fuel w 0

/-- One API call; only `processMessages` deserializes. Models Receiver.h:86-155. -/
def stepV (V : Patterns) (B : Build) (user : UserCode) (fuel : Nat) (w : World C) : Op → Res (World C × Obs)
  | .process => do
    let (w, o) ← w.processMessagesV V B user fuel
    return (w, .processed o)
  | op => w.step B user fuel op

/-- A history of API calls. Uses of Receiver.h:86-155. -/
def runV (V : Patterns) (B : Build) (user : UserCode) (fuel : Nat) : World C → List Op → Res (World C × List Obs)
  | w, [] => .ok (w, [])
  | w, op :: ops => do
    let (w, o) ← w.stepV V B user fuel op
    let (w, os) ← runV V B user fuel w ops
    return (w, o :: os)

end World
end TT
